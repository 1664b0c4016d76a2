import Mathlib.Data.List.Nodup
import Verif.Model.MMapFile

/-!
# C111: a file mapping has one owner until it is unmapped, and no descriptor is left open

Model: Model/MMapFile.lean.
-/

namespace Alaya.MMap

structure Inv (w : World) : Prop where
  fds : w.fds = []
  wrong : w.wrong = false
  nodup : w.maps.Nodup
  lt : ∀ m ∈ w.maps, m.1 < w.next
  inj : ∀ m ∈ w.maps, ∀ m' ∈ w.maps, m.1 = m'.1 → m = m'
  pos : ∀ m ∈ w.maps, 0 < m.2
  owned : ∀ m, m ∈ w.maps ↔ ∃ i, w.objs i = some (some m)
  uniq : ∀ i j m, w.objs i = some (some m) → w.objs j = some (some m) → i = j

theorem open_spec {w : World} (h : Inv w) (a : Answers) :
    ((openImpl w a).2 = none ∧ Inv (openImpl w a).1 ∧ (openImpl w a).1.maps = w.maps ∧ (openImpl w a).1.objs = w.objs) ∨
    ∃ m, (openImpl w a).2 = some m ∧ w.next ≤ m.1 ∧ m.1 < (openImpl w a).1.next ∧ 0 < m.2 ∧ (openImpl w a).1.maps = m :: w.maps ∧
      (openImpl w a).1.objs = w.objs ∧ (openImpl w a).1.fds = [] ∧ (openImpl w a).1.wrong = false := by
  have hi : Inv { w with fds := [], next := w.next + 1 } :=
    ⟨rfl, h.wrong, h.nodup, fun m hm => Nat.lt_succ_of_lt (h.lt m hm), h.inj, h.pos, h.owned, h.uniq⟩
  obtain ⟨o, st, mp⟩ := a
  cases o with
  | false => exact Or.inl ⟨rfl, h, rfl, rfl⟩
  | true =>
    cases st with
    | none => left; simp only [openImpl, h.fds, List.erase_cons_head]; exact ⟨rfl, hi, rfl, rfl⟩
    | some p =>
      obtain ⟨reg, size⟩ := p
      cases reg with
      | false => left; simp only [openImpl, h.fds, List.erase_cons_head]; exact ⟨rfl, hi, rfl, rfl⟩
      | true =>
        by_cases hs : size ≤ 0
        · left
          simp only [openImpl, h.fds, List.erase_cons_head, Bool.not_true, Bool.false_eq_true, if_false, hs, if_true]
          exact ⟨by trivial, hi, by trivial, by trivial⟩
        · cases mp with
          | false =>
            left
            simp only [openImpl, h.fds, List.erase_cons_head, Bool.not_true, Bool.false_eq_true, if_false, hs]
            exact ⟨by trivial, hi, by trivial, by trivial⟩
          | true =>
            right
            simp only [openImpl, h.fds, List.erase_cons_head, Bool.not_true, Bool.false_eq_true, if_false, hs, if_true]
            exact ⟨_, rfl, by simp, by simp, by simp only []; omega, rfl, by trivial, by trivial, h.wrong⟩

theorem release_spec {w : World} (h : Inv w) (i : Nat) : Inv (release w i) ∧ (∀ m, (release w i).objs i ≠ some (some m)) ∧
    (∀ j, j ≠ i → (release w i).objs j = w.objs j) := by
  unfold release
  split
  · rename_i m hm
    have hmem : m ∈ w.maps := (h.owned m).mpr ⟨i, hm⟩
    refine ⟨⟨h.fds, ?_, h.nodup.erase m, ?_, ?_, ?_, ?_, ?_⟩, by simp, fun j hj => by simp [hj]⟩
    · simp [h.wrong, hmem]
    · intro x hx; exact h.lt x (List.mem_of_mem_erase hx)
    · intro x hx y hy; exact h.inj x (List.mem_of_mem_erase hx) y (List.mem_of_mem_erase hy)
    · intro x hx; exact h.pos x (List.mem_of_mem_erase hx)
    · intro x
      simp only [h.nodup.mem_erase_iff]
      constructor
      · rintro ⟨hne, hx⟩
        obtain ⟨j, hj⟩ := (h.owned x).mp hx
        refine ⟨j, ?_⟩
        have : j ≠ i := by rintro rfl; rw [hm] at hj; simp at hj; exact hne hj.symm
        simpa [this] using hj
      · rintro ⟨j, hj⟩
        by_cases e : j = i
        · subst e; simp at hj
        · simp only [ne_eq, e, not_false_eq_true, Function.update_of_ne] at hj
          refine ⟨?_, (h.owned x).mpr ⟨j, hj⟩⟩
          rintro rfl
          exact e (h.uniq _ _ _ hj hm)
    · intro a b x ha hb
      by_cases e : a = i
      · subst e; simp at ha
      · by_cases e' : b = i
        · subst e'; simp at hb
        · simp only [ne_eq, e, e', not_false_eq_true, Function.update_of_ne] at ha hb
          exact h.uniq _ _ _ ha hb
  · rename_i hn
    exact ⟨h, fun m hm => hn m hm, fun _ _ => rfl⟩

/-- Objects that hold nothing may be replaced by such. -/
theorem inv_clear {w : World} (h : Inv w) (i : Nat) (x : Option (Option Mapping)) (hx : ∀ m, x ≠ some (some m))
    (hi : ∀ m, w.objs i ≠ some (some m)) : Inv { w with objs := Function.update w.objs i x } := by
  have e : ∀ j m, Function.update w.objs i x j = some (some m) ↔ w.objs j = some (some m) := by
    intro j m
    by_cases hj : j = i
    · subst hj; simp [hx m, hi m]
    · simp [hj]
  exact ⟨h.fds, h.wrong, h.nodup, h.lt, h.inj, h.pos, fun m => by simp only [e]; exact h.owned m, fun a b m ha hb => by
    rw [e] at ha hb; exact h.uniq a b m ha hb⟩

theorem inv_move {w : World} (h : Inv w) (i j : Nat) (hij : i ≠ j) (x : Option Mapping) (hj : w.objs j = some x)
    (hi : ∀ m, w.objs i ≠ some (some m)) :
    Inv { w with objs := Function.update (Function.update w.objs i (some x)) j (some none) } := by
  have e : ∀ a m, Function.update (Function.update w.objs i (some x)) j (some none) a = some (some m) ↔
      (a = i ∧ w.objs j = some (some m)) ∨ (a ≠ i ∧ a ≠ j ∧ w.objs a = some (some m)) := by
    intro a m
    by_cases h1 : a = j
    · subst h1; simp [Ne.symm hij]
    · by_cases h2 : a = i
      · subst h2; simp [hij, hj]
      · simp [h1, h2]
  refine ⟨h.fds, h.wrong, h.nodup, h.lt, h.inj, h.pos, ?_, ?_⟩
  · intro m
    simp only [e]
    rw [h.owned m]
    constructor
    · rintro ⟨a, ha⟩
      by_cases h1 : a = j
      · subst h1; exact ⟨i, Or.inl ⟨rfl, ha⟩⟩
      · have : a ≠ i := by rintro rfl; exact hi m ha
        exact ⟨a, Or.inr ⟨this, h1, ha⟩⟩
    · rintro ⟨a, ⟨_, ha⟩ | ⟨_, _, ha⟩⟩
      · exact ⟨j, ha⟩
      · exact ⟨a, ha⟩
  · intro a b m ha hb
    rw [e] at ha hb
    rcases ha with ⟨ea, ha⟩ | ⟨_, na, ha⟩ <;> rcases hb with ⟨eb, hb⟩ | ⟨_, nb, hb⟩
    · rw [ea, eb]
    · exact absurd (h.uniq _ _ _ hb ha) nb
    · exact absurd (h.uniq _ _ _ ha hb) na
    · exact h.uniq _ _ _ ha hb

theorem inv_step {w : World} (h : Inv w) (o : Op) : Inv (step w o) := by
  cases o with
  | empty i =>
    simp only [step]
    split
    · rename_i hi; exact inv_clear h i _ (by simp) (by simp [hi])
    · exact h
  | new i a =>
    simp only [step]
    split
    · rename_i hi
      have hs := open_spec h a
      generalize openImpl w a = r at hs ⊢
      obtain ⟨w', o⟩ := r
      dsimp only at hs
      rcases hs with ⟨rfl, h1, _, _⟩ | ⟨m, rfl, hge, hlt, hpos, hmaps, hobjs, hfds, hw⟩
      · exact h1
      · have hfresh : ∀ x ∈ w.maps, x.1 ≠ m.1 := fun x hx => by have := h.lt x hx; omega
        have e : ∀ j x, Function.update w'.objs i (some (some m)) j = some (some x) ↔ (j = i ∧ x = m) ∨ w.objs j = some (some x) := by
          intro j x
          rw [hobjs]
          by_cases hj : j = i
          · subst hj; simp [hi, eq_comm]
          · simp [hj]
        have hno : ∀ j, w.objs j ≠ some (some m) := fun j hj => hfresh m ((h.owned m).mpr ⟨j, hj⟩) rfl
        refine ⟨hfds, hw, ?_, ?_, ?_, ?_, ?_, ?_⟩
        · simp only [hmaps, List.nodup_cons]; exact ⟨fun hm => hfresh m hm rfl, h.nodup⟩
        · intro x hx
          simp only [hmaps, List.mem_cons] at hx
          rcases hx with rfl | hx
          · exact hlt
          · exact Nat.lt_trans (Nat.lt_of_lt_of_le (h.lt x hx) hge) hlt
        · intro x hx y hy hxy
          simp only [hmaps, List.mem_cons] at hx hy
          rcases hx with rfl | hx <;> rcases hy with rfl | hy
          · rfl
          · exact absurd hxy.symm (hfresh y hy)
          · exact absurd hxy (hfresh x hx)
          · exact h.inj x hx y hy hxy
        · intro x hx
          simp only [hmaps, List.mem_cons] at hx
          rcases hx with rfl | hx
          · exact hpos
          · exact h.pos x hx
        · intro x
          simp only [hmaps, List.mem_cons, e, h.owned x]
          constructor
          · rintro (rfl | ⟨j, hj⟩)
            · exact ⟨i, Or.inl ⟨rfl, rfl⟩⟩
            · exact ⟨j, Or.inr hj⟩
          · rintro ⟨j, ⟨_, rfl⟩ | hj⟩
            · exact Or.inl rfl
            · exact Or.inr ⟨j, hj⟩
        · intro a b x ha hb
          rw [e] at ha hb
          rcases ha with ⟨ea, ha⟩ | ha <;> rcases hb with ⟨eb, hb⟩ | hb
          · rw [ea, eb]
          · subst ha; exact absurd hb (hno b)
          · subst hb; exact absurd ha (hno a)
          · exact h.uniq a b x ha hb
    · exact h
  | moveNew i j =>
    simp only [step]
    split
    · rename_i hi
      split
      · exact h
      · rename_i x hj
        exact inv_move h i j (by rintro rfl; rw [hi] at hj; cases hj) x hj (by simp [hi])
    · exact h
  | moveAssign i j =>
    simp only [step]
    split
    · exact h
    · rename_i hij
      split
      · exact h
      · split
        · exact h
        · rename_i x hj
          obtain ⟨h1, h2, h3⟩ := release_spec h i
          exact inv_move h1 i j hij x (by rw [h3 j (Ne.symm hij)]; exact hj) h2
  | destroy i =>
    obtain ⟨h1, h2, _⟩ := release_spec h i
    exact inv_clear h1 i _ (by simp) h2

theorem inv_run (ops : List Op) : Inv (run ops) := by
  have : ∀ (l : List Op) (w : World), Inv w → Inv (l.foldl step w) := by
    intro l
    induction l with
    | nil => intro w h; exact h
    | cons o t ih => intro w h; exact ih _ (inv_step h o)
  exact this ops _ ⟨rfl, rfl, List.nodup_nil, by simp, by simp, by simp, by simp, by simp⟩

/-- Whatever a program does and the system answers: every mapping is held, with its length, by exactly one object; what an object holds is mapped and not
empty; nothing is unmapped twice or with another length; no file descriptor is left open. -/
theorem C111_owner (ops : List Op) :
    (∀ m ∈ (run ops).maps, ∃! i, (run ops).objs i = some (some m)) ∧
      (∀ i m, (run ops).objs i = some (some m) → m ∈ (run ops).maps ∧ 0 < m.2) ∧ (run ops).maps.Nodup ∧ (run ops).wrong = false ∧
      (run ops).fds = [] := by
  have h := inv_run ops
  refine ⟨?_, ?_, h.nodup, h.wrong, h.fds⟩
  · intro m hm
    obtain ⟨i, hi⟩ := (h.owned m).mp hm
    exact ⟨i, hi, fun j hj => h.uniq j i m hj hi⟩
  · intro i m hi
    have := (h.owned m).mpr ⟨i, hi⟩
    exact ⟨this, h.pos m this⟩

/-- Opening a regular file that is not empty gives an object with a mapping of the file's size, if the system grants all; otherwise nothing changes. -/
theorem C111_open (ops : List Op) (i : Nat) (hi : (run ops).objs i = none) (a : Answers) :
    (∀ size : Int, 0 < size → a = ⟨true, some (true, size), true⟩ →
      ∃ m : Mapping, (step (run ops) (.new i a)).objs i = some (some m) ∧ (m.2 : Int) = size ∧ m ∉ (run ops).maps ∧
        (step (run ops) (.new i a)).maps = m :: (run ops).maps) ∧
    ((¬ ∃ size : Int, 0 < size ∧ a = ⟨true, some (true, size), true⟩) →
      (step (run ops) (.new i a)).objs = (run ops).objs ∧ (step (run ops) (.new i a)).maps = (run ops).maps) := by
  refine ⟨?_, ?_⟩
  · rintro size hs rfl
    have hs' : ¬ size ≤ 0 := by omega
    refine ⟨((run ops).next + 1, size.toNat), by simp [step, hi, openImpl, hs'], by simp only []; omega, ?_, by simp [step, hi, openImpl, hs']⟩
    intro hm
    have := (inv_run ops).lt _ hm
    simp only at this
    omega
  · intro hn
    obtain ⟨o, st, mp⟩ := a
    cases o with
    | false => simp [step, hi, openImpl]
    | true =>
      cases st with
      | none => simp [step, hi, openImpl]
      | some p =>
        obtain ⟨reg, size⟩ := p
        cases reg with
        | false => simp [step, hi, openImpl]
        | true =>
          by_cases hs : size ≤ 0
          · simp [step, hi, openImpl, hs]
          · cases mp with
            | false => simp [step, hi, openImpl, hs]
            | true => exact absurd ⟨size, by omega, rfl⟩ hn

/-- When the objects are gone nothing is mapped. -/
theorem C111_released (ops : List Op) (h : ∀ i, (run ops).objs i = none) : (run ops).maps = [] := by
  refine List.eq_nil_iff_forall_not_mem.mpr fun m hm => ?_
  obtain ⟨i, hi⟩ := ((inv_run ops).owned m).mp hm
  rw [h i] at hi
  cases hi

/-- A move hands over what the source held and leaves the source empty; assigning an object to itself changes nothing. -/
theorem C111_move (ops : List Op) (i j : Nat) (x : Option Mapping) (hi : (run ops).objs i ≠ none) (hj : (run ops).objs j = some x) :
    (step (run ops) (.moveAssign i j)).objs i = some x ∧ (i ≠ j → (step (run ops) (.moveAssign i j)).objs j = some none) ∧
      (∀ m, x = some m → m ∈ (step (run ops) (.moveAssign i j)).maps) ∧
      (∀ m, i ≠ j → (run ops).objs i = some (some m) → m ∉ (step (run ops) (.moveAssign i j)).maps) := by
  have hinv := inv_step (inv_run ops) (.moveAssign i j)
  by_cases hij : i = j
  · subst hij
    simp only [step, if_true]
    exact ⟨hj, fun h => absurd rfl h, fun m hm => ((inv_run ops).owned m).mpr ⟨i, by rw [hj, hm]⟩, fun m h => absurd rfl h⟩
  · have e1 : (step (run ops) (.moveAssign i j)).objs i = some x := by simp [step, hij, hi, hj]
    refine ⟨e1, fun _ => by simp [step, hij, hi, hj], fun m hm => (hinv.owned m).mpr ⟨i, by rw [e1, hm]⟩, ?_⟩
    intro m _ hm
    have e2 : (step (run ops) (.moveAssign i j)).maps = (run ops).maps.erase m := by simp [step, hij, hj, release, hm]
    rw [e2, (inv_run ops).nodup.mem_erase_iff]
    exact fun hc => hc.1 rfl

/-- `as<T>()` gives elements that fill the mapping exactly, or throws. -/
theorem C111_as (size sz n : Nat) (hsz : 0 < sz) : asElems size sz = some n ↔ n * sz = size := by
  unfold asElems
  split
  · rename_i h
    constructor
    · intro hc; cases hc
    · rintro rfl; simp at h
  · rename_i h
    have h0 : size % sz = 0 := by simpa using h
    have := Nat.div_add_mod size sz
    rw [h0, Nat.add_zero, Nat.mul_comm] at this
    constructor
    · intro hc
      simp only [Option.some.injEq] at hc
      rw [← hc]; exact this
    · rintro rfl
      rw [Nat.mul_div_cancel _ hsz]

/-- Two files are opened, a third is empty; the second is moved over the first. -/
def two : List Op := [.new 0 ⟨true, some (true, 100), true⟩, .new 1 ⟨true, some (true, 200), true⟩, .new 2 ⟨true, some (true, 0), true⟩,
  .moveAssign 0 1]

example : (run two).maps = [(3, 200)] ∧ (run two).objs 0 = some (some (3, 200)) ∧ (run two).objs 1 = some none ∧ (run two).objs 2 = none := by
  decide +kernel
example : (run (two ++ [.destroy 0, .destroy 1])).maps = [] := by decide +kernel
example : (run (two.take 2)).objs 0 ≠ none ∧ (run (two.take 2)).objs 1 = some (some (3, 200)) := by decide +kernel
example : asElems 200 8 = some 25 ∧ asElems 200 16 = none := by decide +kernel

end Alaya.MMap
