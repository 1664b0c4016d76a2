import Verif.Lemmas.SeqStorage

/-! C20: slots of the sequential vector storage. -/
namespace Alaya.Seq
open Spec

/-- Parameters `init` is called with: the alignment is a power of two and nothing exceeds 64 bits. -/
def InitOk (isz cap k : Nat) : Prop := k < 64 ∧ isz + 2 ^ k - 1 < 2 ^ 64 ∧ cap + 2 ^ k < 2 ^ 64

/-- Every history of calls stays inside the two allocations, returns what the abstract slot list returns, and every
slot then has the validity and the content of the abstract slot. -/
theorem C20_slot_store (isz cap k : Nat) (fill : UInt8) (hi : InitOk isz cap k) (ops : List Op)
    (h : ∀ op ∈ ops, OpIn cap isz op) :
    ∃ s, (init isz cap fill (2 ^ k)).run ops = some (s, (Slots.run cap (List.replicate isz fill) [] ops).2) ∧
      ∀ i, i < cap →
        s.isValid i = some (((Slots.run cap (List.replicate isz fill) [] ops).1[i]?.map Prod.fst).getD false) ∧
        s.read i = some (((Slots.run cap (List.replicate isz fill) [] ops).1[i]?.map Prod.snd).getD
          (List.replicate isz fill)) := by
  obtain ⟨s, e, r⟩ := (Rep.init (cap := cap) fill hi.1 hi.2.1 hi.2.2).run ops h
  exact ⟨s, e, fun i hlt => ⟨r.isValid hlt, r.read hlt⟩⟩

example : InitOk 6 3 2 := by unfold InitOk; omega
example : (init 2 9 7 4).run [.insert [1, 2], .reserve, .insert [3, 4], .remove 0, .update 2 [5, 6], .remove 0, .update 0 [9, 9]]
    = some (⟨2, 4, 9, 3, 4, [1, 2, 7, 7, 7, 7, 7, 7, 5, 6, 7, 7] ++ List.replicate 24 7, [6#8, 0#8, 0#8, 0#8]⟩,
        [some 0, some 1, some 2, some 0, some 2, none, none]) := by decide

/-- The ids returned by the successful inserts and reserves of a history, in order. -/
def granted : List Op → List (Option Nat) → List Nat
  | .insert _ :: ops, some id :: rs => id :: granted ops rs
  | .reserve :: ops, some id :: rs => id :: granted ops rs
  | _ :: ops, _ :: rs => granted ops rs
  | _, _ => []

theorem slots_granted (cap : Nat) (blank : Bytes) (ops : List Op) : ∀ l : Slots,
    l.length + (granted ops (l.run cap blank ops).2).length = (l.run cap blank ops).1.length ∧
    granted ops (l.run cap blank ops).2 =
      List.range' l.length ((l.run cap blank ops).1.length - l.length) ∧ l.length ≤ (l.run cap blank ops).1.length := by
  induction ops with
  | nil => intro l; simp [granted, Slots.run]
  | cons op ops ih =>
    intro l
    have hgen : ∀ (l' : Slots) (r : Option Nat), l.step cap blank op = (l', r) →
        ((l'.length = l.length ∧ (∀ rs, granted (op :: ops) (r :: rs) = granted ops rs)) ∨
         (l'.length = l.length + 1 ∧ (∀ rs, granted (op :: ops) (r :: rs) = l.length :: granted ops rs))) := by
      intro l' r e
      cases op with
      | insert d =>
        simp only [Slots.step] at e
        split at e <;> cases e
        · right; exact ⟨by simp, fun rs => rfl⟩
        · left; exact ⟨rfl, fun rs => rfl⟩
      | reserve =>
        simp only [Slots.step] at e
        split at e <;> cases e
        · right; exact ⟨by simp, fun rs => rfl⟩
        · left; exact ⟨rfl, fun rs => rfl⟩
      | remove id =>
        simp only [Slots.step] at e
        split at e <;> cases e <;> exact Or.inl ⟨by simp, fun rs => by simp [granted]⟩
      | update id d =>
        simp only [Slots.step] at e
        split at e <;> cases e <;> exact Or.inl ⟨by simp, fun rs => by simp [granted]⟩
    rcases hst : l.step cap blank op with ⟨l', r⟩
    have hrun : l.run cap blank (op :: ops) = ((l'.run cap blank ops).1, r :: (l'.run cap blank ops).2) := by
      simp only [Slots.run, hst]
    rw [hrun]
    obtain ⟨i1, i2, i3⟩ := ih l'
    rcases hgen l' r hst with ⟨hl, hg⟩ | ⟨hl, hg⟩
    · rw [hg]
      rw [hl] at i1 i2 i3
      exact ⟨i1, i2, i3⟩
    · simp only [hg, List.length_cons]
      rw [hl] at i2
      refine ⟨by omega, ?_, by omega⟩
      rw [i2]
      have : (l'.run cap blank ops).1.length - l.length = ((l'.run cap blank ops).1.length - (l.length + 1)) + 1 := by omega
      rw [this, List.range'_succ]

/-- Successful inserts and reserves return 0, 1, 2, … : never the same slot twice, whatever was removed in between,
and always a slot below the capacity. -/
theorem C20_slots_fresh (isz cap k : Nat) (fill : UInt8) (hi : InitOk isz cap k) (ops : List Op)
    (h : ∀ op ∈ ops, OpIn cap isz op) :
    ∃ s rets, (init isz cap fill (2 ^ k)).run ops = some (s, rets) ∧
      granted ops rets = List.range (granted ops rets).length ∧ (granted ops rets).Nodup ∧
      ∀ i ∈ granted ops rets, i < cap := by
  obtain ⟨s, e, r⟩ := (Rep.init (cap := cap) fill hi.1 hi.2.1 hi.2.2).run ops h
  obtain ⟨g1, g2, g3⟩ := slots_granted cap (List.replicate isz fill) ops []
  simp only [List.length_nil, Nat.zero_add, Nat.sub_zero] at g1 g2
  rw [← List.range_eq_range'] at g2
  refine ⟨s, _, e, ?_, ?_, ?_⟩
  · rw [g1, g2]
  · rw [g2]; exact List.nodup_range
  · intro i him
    rw [g2, List.mem_range] at him
    exact Nat.lt_of_lt_of_le him r.le

theorem slots_run_append (cap : Nat) (blank : Bytes) (a b : List Op) : ∀ l : Slots,
    l.run cap blank (a ++ b) = (((l.run cap blank a).1.run cap blank b).1,
      (l.run cap blank a).2 ++ ((l.run cap blank a).1.run cap blank b).2) := by
  induction a with
  | nil => intro l; rfl
  | cons op a ih => intro l; simp only [List.cons_append, Slots.run, ih]

/-- An invalid slot that was handed out never becomes valid again. -/
theorem slots_step_invalid (cap : Nat) (blank : Bytes) (op : Op) (l : Slots) (i : Nat) (c : Bytes)
    (h : l[i]? = some (false, c)) : (l.step cap blank op).1[i]? = some (false, c) := by
  have hlen : i < l.length := by
    rcases Nat.lt_or_ge i l.length with hh | hh
    · exact hh
    · rw [List.getElem?_eq_none hh] at h; cases h
  cases op with
  | insert d =>
    simp only [Slots.step]; split
    · rw [List.getElem?_append_left hlen, h]
    · exact h
  | reserve =>
    simp only [Slots.step]; split
    · rw [List.getElem?_append_left hlen, h]
    · exact h
  | remove id =>
    simp only [Slots.step]; split
    · rename_i c' hid
      have : id ≠ i := by intro e; subst e; rw [h] at hid; cases hid
      rw [List.getElem?_set, if_neg this, h]
    · exact h
  | update id d =>
    simp only [Slots.step]; split
    · rename_i c' hid
      have : id ≠ i := by intro e; subst e; rw [h] at hid; cases hid
      rw [List.getElem?_set, if_neg this, h]
    · exact h

theorem slots_run_invalid (cap : Nat) (blank : Bytes) (ops : List Op) : ∀ (l : Slots) (i : Nat) (c : Bytes),
    l[i]? = some (false, c) → (l.run cap blank ops).1[i]? = some (false, c) := by
  induction ops with
  | nil => intro l i c h; exact h
  | cons op ops ih => intro l i c h; exact ih _ i c (slots_step_invalid cap blank op l i c h)

/-- Once a `remove` of slot `id` succeeded, the slot is invalid after every further history. -/
theorem C20_removed_stays_invalid (isz cap k : Nat) (fill : UInt8) (hi : InitOk isz cap k) (pre post : List Op)
    (id : Nat) (h : ∀ op ∈ pre ++ .remove id :: post, OpIn cap isz op) (s s1 s2 : Storage) (r1 r2 : List (Option Nat))
    (h1 : (init isz cap fill (2 ^ k)).run pre = some (s, r1)) (h2 : s.remove id = some (s1, some id))
    (h3 : s1.run post = some (s2, r2)) : s2.isValid id = some false := by
  obtain ⟨t, e, r⟩ := (Rep.init (cap := cap) fill hi.1 hi.2.1 hi.2.2).run pre (fun o ho => h o (by simp [ho]))
  rw [h1] at e
  obtain ⟨rfl, -⟩ := Prod.mk.inj (Option.some.inj e)
  have hid : id < cap := h (.remove id) (by simp)
  obtain ⟨t1, e1, q1⟩ := r.step (.remove id) hid
  have e1' := e1
  simp only [Storage.step] at e1
  rw [h2] at e1
  obtain ⟨rfl, e1r⟩ := Prod.mk.inj (Option.some.inj e1)
  obtain ⟨t2, e2, q2⟩ := q1.run post (fun o ho => h o (by simp [ho]))
  rw [h3] at e2
  obtain ⟨rfl, -⟩ := Prod.mk.inj (Option.some.inj e2)
  have key : ∃ c, (Slots.step cap (List.replicate isz fill) (Slots.run cap (List.replicate isz fill) [] pre).1
      (.remove id)).1[id]? = some (false, c) := by
    generalize (Slots.run cap (List.replicate isz fill) [] pre).1 = l at e1r
    simp only [Slots.step] at e1r ⊢
    split
    · rename_i c hc
      have hlen : id < l.length := by
        rcases Nat.lt_or_ge id l.length with hh | hh
        · exact hh
        · rw [List.getElem?_eq_none hh] at hc; cases hc
      exact ⟨c, by rw [List.getElem?_set, if_pos rfl, if_pos hlen]⟩
    · rename_i hc
      split at e1r
      · rename_i c hc'
        exact absurd hc' (hc c)
      · cases e1r
  obtain ⟨c, hc⟩ := key
  rw [q2.isValid hid, slots_run_invalid cap _ post _ id c hc]
  rfl

example : ∃ s s1 s2 r2, (init 2 9 7 4).run [.insert [1, 2], .reserve] = some (s, [some 0, some 1]) ∧
    s.remove 0 = some (s1, some 0) ∧ s1.run [.insert [3, 4], .update 0 [1, 1]] = some (s2, r2) := by
  refine ⟨_, _, _, _, rfl, rfl, rfl⟩

/-- The operation writes vector bytes into slot `i` (given the id it returned). -/
def writes (i : Nat) : Op → Option Nat → Option Bytes
  | .insert d, some id => if id = i then some d else none
  | .update _ d, some id => if id = i then some d else none
  | _, _ => none

/-- The last bytes a history wrote into slot `i`. -/
def lastWrite (i : Nat) : List Op → List (Option Nat) → Option Bytes → Option Bytes
  | op :: ops, r :: rs, acc => lastWrite i ops rs ((writes i op r).or acc)
  | _, _, acc => acc

theorem slots_step_content (cap : Nat) (blank : Bytes) (op : Op) (l : Slots) (i : Nat) :
    (((l.step cap blank op).1[i]?).map Prod.snd).getD blank =
      (writes i op (l.step cap blank op).2).getD ((l[i]?.map Prod.snd).getD blank) := by
  cases op with
  | insert d =>
    simp only [Slots.step]; split
    · simp only [writes]
      by_cases hi : l.length = i
      · subst hi; simp
      · rw [if_neg hi, List.getElem?_append]
        split
        · rfl
        · rw [List.getElem?_eq_none (by simp; omega), List.getElem?_eq_none (by omega)]; rfl
    · rfl
  | reserve =>
    simp only [Slots.step]; split
    · simp only [writes]
      by_cases hi : l.length = i
      · subst hi; simp
      · rw [List.getElem?_append]
        split
        · rfl
        · rw [List.getElem?_eq_none (by simp; omega), List.getElem?_eq_none (by omega)]; rfl
    · rfl
  | remove id =>
    simp only [Slots.step]
    split
    · rename_i c hc
      simp only [writes, Option.getD_none]
      rw [List.getElem?_set]
      by_cases hi : id = i
      · subst hi
        have hlen : id < l.length := by
          rcases Nat.lt_or_ge id l.length with hh | hh
          · exact hh
          · rw [List.getElem?_eq_none hh] at hc; cases hc
        rw [if_pos rfl, if_pos hlen, hc]; rfl
      · rw [if_neg hi]
    · rfl
  | update id d =>
    simp only [Slots.step]
    split
    · rename_i c hc
      simp only [writes]
      rw [List.getElem?_set]
      by_cases hi : id = i
      · subst hi
        have hlen : id < l.length := by
          rcases Nat.lt_or_ge id l.length with hh | hh
          · exact hh
          · rw [List.getElem?_eq_none hh] at hc; cases hc
        rw [if_pos rfl, if_pos hlen, if_pos rfl]; rfl
      · rw [if_neg hi, if_neg hi]; rfl
    · rfl

theorem slots_run_content (cap : Nat) (blank : Bytes) (i : Nat) (ops : List Op) : ∀ (l : Slots),
    ((((l.run cap blank ops).1)[i]?).map Prod.snd).getD blank =
      (lastWrite i ops (l.run cap blank ops).2 (some ((l[i]?.map Prod.snd).getD blank))).getD [] := by
  induction ops with
  | nil => intro l; rfl
  | cons op ops ih =>
    intro l
    simp only [Slots.run]
    rw [ih, slots_step_content]
    simp only [lastWrite]
    congr 2
    cases writes i op (l.step cap blank op).2 <;> rfl

/-- Every slot reads back exactly the bytes of the last successful call that wrote to it (the fill pattern if there
was none); calls on other slots, removals and refused calls never change it. -/
theorem C20_reads_last_write (isz cap k : Nat) (fill : UInt8) (hi : InitOk isz cap k) (ops : List Op)
    (h : ∀ op ∈ ops, OpIn cap isz op) :
    ∃ s rets, (init isz cap fill (2 ^ k)).run ops = some (s, rets) ∧
      ∀ i, i < cap → s.read i = lastWrite i ops rets (some (List.replicate isz fill)) := by
  obtain ⟨s, e, r⟩ := (Rep.init (cap := cap) fill hi.1 hi.2.1 hi.2.2).run ops h
  refine ⟨s, _, e, ?_⟩
  intro i hlt
  rw [r.read hlt, slots_run_content]
  have hs : ∀ (ops : List Op) (rs : List (Option Nat)) (a : Bytes), ∃ b, lastWrite i ops rs (some a) = some b := by
    intro ops
    induction ops with
    | nil => intro rs a; exact ⟨a, by cases rs <;> rfl⟩
    | cons op ops ih =>
      intro rs a
      cases rs with
      | nil => exact ⟨a, rfl⟩
      | cons x xs =>
        simp only [lastWrite]
        cases writes i op x with
        | none => exact ih xs a
        | some b => exact ih xs b
  obtain ⟨b, hb⟩ := hs ops (Slots.run cap (List.replicate isz fill) [] ops).2 (List.replicate isz fill)
  show some ((lastWrite i ops _ (some (List.replicate isz fill))).getD []) = _
  rw [hb]; rfl

example : lastWrite 2 [.insert [1, 2], .reserve, .insert [3, 4], .remove 0, .update 2 [5, 6], .remove 2, .update 2 [8, 8]]
    [some 0, some 1, some 2, some 0, some 2, some 2, none] (some [7, 7]) = some [5, 6] := by decide

/-- Slots start at multiples of the alignment and do not overlap. -/
theorem C20_slots_aligned (isz cap k : Nat) (fill : UInt8) (hi : InitOk isz cap k) :
    2 ^ k ∣ (init isz cap fill (2 ^ k)).aligned ∧ isz ≤ (init isz cap fill (2 ^ k)).aligned ∧
    (init isz cap fill (2 ^ k)).aligned < isz + 2 ^ k := by
  refine ⟨?_, roundUp_ge hi.1 hi.2.1, ?_⟩
  · show 2 ^ k ∣ roundUp isz (2 ^ k)
    rw [roundUp_eq hi.1 hi.2.1]
    exact Nat.dvd_mul_left _ _
  · show roundUp isz (2 ^ k) < _
    rw [roundUp_eq hi.1 hi.2.1]
    have := Nat.div_mul_le_self (isz + 2 ^ k - 1) (2 ^ k)
    have hp : 0 < 2 ^ k := Nat.two_pow_pos k
    omega

end Alaya.Seq
