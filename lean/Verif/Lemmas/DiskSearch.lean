import Verif.Model.DiskSearch
import Verif.Lemmas.TopK

namespace Alaya.DiskColl
open Alaya.TopK Alaya.Spec

theorem hitLess_weak : Weak hitLess := by
  constructor
  · intro a b h
    obtain ⟨la, da⟩ := a
    obtain ⟨lb, db⟩ := b
    cases da <;> cases db <;> simp_all [hitLess, distEq, distLess] <;> (try split at h) <;> (try split) <;> (try simp_all) <;> omega
  · intro a b c h1 h2
    obtain ⟨la, da⟩ := a
    obtain ⟨lb, db⟩ := b
    obtain ⟨lc, dc⟩ := c
    cases da <;> cases db <;> cases dc <;> simp_all [hitLess, distEq, distLess] <;>
      (try split at h1) <;> (try split at h2) <;> (try split) <;> (try simp_all) <;> omega

theorem tagLess_weak (laser : Bool) : Weak (tagLess laser) := by
  constructor
  · intro a b h
    obtain ⟨⟨la, da⟩, sa, ra⟩ := a
    obtain ⟨⟨lb, db⟩, sb, rb⟩ := b
    simp only [tagLess] at *
    cases laser <;> cases da <;> cases db <;> simp_all [distEq, distLess] <;>
      (repeat' split at h) <;> (repeat' split) <;> (try simp_all) <;> omega
  · intro a b c h1 h2
    obtain ⟨⟨la, da⟩, sa, ra⟩ := a
    obtain ⟨⟨lb, db⟩, sb, rb⟩ := b
    obtain ⟨⟨lc, dc⟩, sc, rc⟩ := c
    simp only [tagLess] at *
    cases laser <;> cases da <;> cases db <;> cases dc <;> simp_all [distEq, distLess] <;>
      (repeat' split at h1) <;> (repeat' split at h2) <;> (repeat' split) <;> (try simp_all) <;> omega

/-- Taking the first `k` of a sorted permutation is the best `k`. -/
theorem best_of_sort {α : Type} {lt : α → α → Bool} (S : StdSort α lt) (k : Nat) (l : List α) :
    Best (leOf lt) k ((S.sort l).take k) l := by
  refine ⟨(S.sort_sorted l).sublist (List.take_sublist _ _), ?_, (S.sort l).drop k, ?_, ?_⟩
  · rw [List.length_take, (S.sort_perm l).length_eq]
  · rw [List.take_append_drop]; exact (S.sort_perm l).symm
  · intro r hr e he
    have := S.sort_sorted l
    rw [← List.take_append_drop k (S.sort l), List.pairwise_append] at this
    exact this.2.2 e he r hr

theorem tagFrom_hits (s : Nat) : ∀ (hs : List DHit) (r : Nat), (tagFrom s r hs).map Tagged.hit = hs := by
  intro hs
  induction hs with
  | nil => intro r; rfl
  | cons h hs ih => intro r; simp [tagFrom, ih]

theorem tagAll_hits : ∀ (segs : List (List DHit)) (s : Nat), (tagAll s segs).map Tagged.hit = segs.flatten := by
  intro segs
  induction segs with
  | nil => intro s; rfl
  | cons hs segs ih => intro s; simp [tagAll, ih, tagFrom_hits]

/-- The order of tagged hits refines the order of hits. -/
theorem tag_le_hit {a b : Tagged} (h : leOf (tagLess false) a b) : leOf hitLess a.hit b.hit := by
  obtain ⟨⟨la, da⟩, sa, ra⟩ := a
  obtain ⟨⟨lb, db⟩, sb, rb⟩ := b
  unfold leOf at *
  simp only [tagLess, hitLess] at *
  cases da <;> cases db <;> simp_all [distEq, distLess] <;>
      (repeat' split at h) <;> (repeat' split) <;> (try simp_all) <;> omega

/-- Mapping the best of the tagged hits gives the best of the hits. -/
theorem best_map {α β : Type} {le : α → α → Prop} {le' : β → β → Prop} (f : α → β) (hle : ∀ a b, le a b → le' (f a) (f b))
    {k : Nat} {c off : List α} (h : Best le k c off) : Best le' k (c.map f) (off.map f) := by
  obtain ⟨h1, h2, rest, h3, h4⟩ := h
  refine ⟨h1.map f (fun a b => hle a b), by simpa using h2, rest.map f, ?_, ?_⟩
  · rw [← List.map_append]; exact h3.map f
  · intro r hr e he
    obtain ⟨r', hr', rfl⟩ := List.mem_map.mp hr
    obtain ⟨e', he', rfl⟩ := List.mem_map.mp he
    exact hle _ _ (h4 r' hr' e' he')

theorem flatten_perm {α : Type} {k : Nat} {le : α → α → Prop} : ∀ (ps : List (List α × List α)),
    (∀ p ∈ ps, Best le k p.1 p.2) → ∃ rests : List α, (ps.map Prod.snd).flatten.Perm ((ps.map Prod.fst).flatten ++ rests) ∧
      ∀ r ∈ rests, ∃ p ∈ ps, p.1.length = k ∧ ∀ e ∈ p.1, le e r := by
  intro ps
  induction ps with
  | nil => intro _; exact ⟨[], by simp, by simp⟩
  | cons p ps ih =>
    intro h
    obtain ⟨rests, hp, hr⟩ := ih (fun q hq => h q (by simp [hq]))
    obtain ⟨h1, h2, rest, h3, h4⟩ := h p (by simp)
    refine ⟨rest ++ rests, ?_, ?_⟩
    · simp only [List.map_cons, List.flatten_cons]
      refine (h3.append hp).trans ?_
      simp only [List.append_assoc]
      apply List.Perm.append_left
      rw [← List.append_assoc, ← List.append_assoc]
      exact List.Perm.append_right _ List.perm_append_comm
    · intro r hr'
      rcases List.mem_append.mp hr' with h' | h'
      · refine ⟨p, by simp, ?_, h4 r h'⟩
        have hlen := h3.length_eq
        rw [List.length_append] at hlen
        have : 0 < rest.length := List.length_pos_of_mem h'
        omega
      · obtain ⟨q, hq, hh⟩ := hr r h'
        exact ⟨q, by simp [hq], hh⟩

theorem countP_of_all {α : Type} {p : α → Bool} : ∀ {l : List α}, (∀ x ∈ l, p x = true) → l.countP p = l.length := by
  intro l h
  exact List.countP_eq_length.mpr h

theorem countP_flatten_ge {α : Type} {p : α → Bool} : ∀ {ls : List (List α)} {l : List α}, l ∈ ls →
    l.countP p ≤ ls.flatten.countP p := by
  intro ls
  induction ls with
  | nil => intro l h; cases h
  | cons a ls ih =>
    intro l h
    rw [List.flatten_cons, List.countP_append]
    rcases List.mem_cons.mp h with h' | h'
    · subst h'; omega
    · have := ih h'; omega

/-- The best `k` of the bests of the parts are the best `k` of the whole. -/
theorem best_merge {α : Type} {lt : α → α → Bool} (hw : Weak lt) {k : Nat} {ps : List (List α × List α)} {out : List α}
    (h : ∀ p ∈ ps, Best (leOf lt) k p.1 p.2) (ho : Best (leOf lt) k out (ps.map Prod.fst).flatten) :
    Best (leOf lt) k out (ps.map Prod.snd).flatten := by
  obtain ⟨rests, hp, hr⟩ := flatten_perm ps h
  obtain ⟨o1, o2, rest, o3, o4⟩ := ho
  have hirr : ∀ a, lt a a = false := by
    intro a
    cases hh : lt a a with
    | false => rfl
    | true => exact absurd (hw.asym a a hh) (by simp [hh])
  have hlen : out.length ≤ k := by rw [o2]; omega
  have key : ∀ r ∈ rests, ∀ e ∈ out, leOf lt e r := by
    intro r hr' e he
    obtain ⟨p, hpp, hpl, hpe⟩ := hr r hr'
    cases hh : lt r e with
    | false => exact hh
    | true =>
      exfalso
      have hall : ∀ x ∈ p.1, lt x e = true := by
        intro x hx
        cases hx2 : lt x e with
        | true => rfl
        | false =>
          have := hw.trans e x r hx2 (hpe x hx)
          rw [this] at hh; cases hh
      have c1 := countP_of_all hall
      have c2 := countP_flatten_ge (p := fun x => lt x e) (List.mem_map.mpr ⟨p, hpp, rfl⟩ : p.1 ∈ ps.map Prod.fst)
      have c3 := o3.countP_eq (fun x => lt x e)
      rw [List.countP_append] at c3
      have c4 : rest.countP (fun x => lt x e) = 0 := by
        rw [List.countP_eq_zero]
        intro x hx
        have := o4 x hx e he
        unfold leOf at this
        simp [this]
      have c5 : out.countP (fun x => lt x e) < out.length := by
        have h1 := List.countP_le_length (p := fun x => lt x e) (l := out)
        have h2 : out.countP (fun x => lt x e) ≠ out.length := by
          intro heq
          have := List.countP_eq_length.mp heq e he
          rw [hirr] at this; cases this
        omega
      omega
  refine ⟨o1, ?_, rest ++ rests, ?_, ?_⟩
  · rw [hp.length_eq, List.length_append, o2]
    by_cases hre : rests = []
    · subst hre; simp
    · obtain ⟨r, hrm⟩ := List.exists_mem_of_ne_nil rests hre
      obtain ⟨p, hpp, hpl, _⟩ := hr r hrm
      have : p.1.length ≤ (ps.map Prod.fst).flatten.length := by
        have := countP_flatten_ge (p := fun _ => true) (List.mem_map.mpr ⟨p, hpp, rfl⟩ : p.1 ∈ ps.map Prod.fst)
        simpa using this
      omega
  · rw [← List.append_assoc]
    exact hp.trans (List.Perm.append_right _ o3)
  · intro r hr' e he
    rcases List.mem_append.mp hr' with h' | h'
    · exact o4 r h' e he
    · exact key r h' e he

theorem DHit.antisymm (a b : DHit) (h1 : leOf hitLess a b) (h2 : leOf hitLess b a) : a = b := by
  obtain ⟨la, da⟩ := a
  obtain ⟨lb, db⟩ := b
  unfold leOf at *
  cases da <;> cases db <;> simp_all [hitLess, distEq, distLess] <;> (try split at h1) <;> (try split at h2) <;> (try simp_all) <;> omega

end Alaya.DiskColl
