import Verif.Model.TopK
import Verif.Spec.Best

namespace Alaya.TopK
open Spec

/-- `lt` is a strict weak order, as the standard requires. -/
structure Weak {α : Type} (lt : α → α → Bool) : Prop where
  asym : ∀ a b, lt a b = true → lt b a = false
  trans : ∀ a b c, lt b a = false → lt c b = false → lt c a = false

/-- The order: nothing in front is greater than anything behind. -/
def leOf {α : Type} (lt : α → α → Bool) (a b : α) : Prop := lt b a = false

theorem Hit.weak : Weak Hit.lt := by
  constructor
  · intro a b h
    unfold Hit.lt at *
    split at h <;> split <;> simp_all <;> omega
  · intro a b c h1 h2
    unfold Hit.lt at *
    split at h1 <;> split at h2 <;> split <;> simp_all <;> omega

/-- `(distance, label)` order. -/
theorem Hit.le_iff (a b : Hit) : leOf Hit.lt a b ↔ a.dist < b.dist ∨ (a.dist = b.dist ∧ a.label ≤ b.label) := by
  unfold leOf Hit.lt
  split <;> simp_all <;> omega

/-- Loop invariant. -/
def HInv {α : Type} {lt : α → α → Bool} (H : StdHeap α lt) (k : Nat) (heap off : List α) : Prop :=
  H.isHeap heap ∧ heap.length = min k off.length ∧
    ∃ rest, off.Perm (heap ++ rest) ∧ ∀ r ∈ rest, ∀ e ∈ heap, lt r e = false

theorem HInv.nil {α : Type} {lt : α → α → Bool} (H : StdHeap α lt) (k : Nat) : HInv H k [] [] :=
  ⟨H.heap_nil, by simp, [], by simp, by simp⟩

theorem HInv.offer {α : Type} {lt : α → α → Bool} (hw : Weak lt) {H : StdHeap α lt} {k : Nat} (hk : 0 < k) {heap off : List α}
    (h : HInv H k heap off) (c : α) : ∃ heap', offer H k heap c = some heap' ∧ HInv H k heap' (off ++ [c]) := by
  obtain ⟨hh, hl, rest, hp, hb⟩ := h
  unfold TopK.offer
  by_cases hlt : heap.length < k
  · rw [if_pos hlt]
    have hrest : rest = [] := by
      have := hp.length_eq
      rw [List.length_append] at this
      apply List.length_eq_zero_iff.mp
      omega
    subst hrest
    rw [List.append_nil] at hp
    refine ⟨_, rfl, H.push_heap _ _ hh, ?_, [], ?_, by simp⟩
    · rw [(H.push_perm _).length_eq]
      simp only [List.length_append, List.length_cons, List.length_nil]
      have := hp.length_eq
      omega
    · rw [List.append_nil]
      exact (List.Perm.append_right [c] hp).trans (H.push_perm _).symm
  · rw [if_neg hlt]
    have hlen : off.length = heap.length + rest.length := by rw [hp.length_eq, List.length_append]
    cases heap with
    | nil => simp at hlt; omega
    | cons f r =>
      have hmax := H.front_max f r hh
      simp only
      by_cases hc : lt c f = true
      · rw [if_pos hc]
        obtain ⟨l, e, pl, hl'⟩ := H.pop_spec f r hh
        rw [e, List.dropLast_concat]
        refine ⟨_, rfl, H.push_heap _ _ hl', ?_, f :: rest, ?_, ?_⟩
        · rw [(H.push_perm _).length_eq]
          simp only [List.length_append, List.length_cons, List.length_nil] at *
          rw [pl.length_eq]; omega
        · have h1 : (off ++ [c]).Perm (f :: r ++ rest ++ [c]) := List.Perm.append_right [c] hp
          have h2 : (f :: r ++ rest ++ [c]).Perm ((r ++ [c]) ++ (f :: rest)) := by
            have e1 : f :: r ++ rest ++ [c] = f :: (r ++ (rest ++ [c])) := by simp
            have e2 : (r ++ [c]) ++ (f :: rest) = r ++ (c :: f :: rest) := by simp
            rw [e1, e2]
            have a1 : (f :: (r ++ (rest ++ [c]))).Perm (r ++ (f :: (rest ++ [c]))) := (List.perm_middle).symm
            refine a1.trans (List.Perm.append_left r ?_)
            have a2 : (f :: (rest ++ [c])).Perm (c :: f :: rest) := by
              have := List.perm_append_comm (l₁ := f :: rest) (l₂ := [c])
              simpa using this
            exact a2
          have h3 : (r ++ [c]).Perm (H.push (l ++ [c])) := (List.Perm.append_right [c] pl.symm).trans (H.push_perm _).symm
          exact (h1.trans h2).trans (List.Perm.append_right _ h3)
        · intro x hx e' he'
          have hmem := (H.push_perm (l ++ [c])).mem_iff.mp he'
          have hef : leOf lt e' f := by
            rcases List.mem_append.mp hmem with h' | h'
            · exact hmax e' (pl.mem_iff.mp h')
            · simp at h'; subst h'; exact hw.asym _ _ hc
          rcases List.mem_cons.mp hx with h' | h'
          · subst h'; exact hef
          · exact hw.trans e' f x hef (hb x h' f (by simp))
      · rw [if_neg hc]
        have hc' : lt c f = false := by simpa using hc
        refine ⟨_, rfl, hh, ?_, rest ++ [c], ?_, ?_⟩
        · simp only [List.length_append, List.length_cons, List.length_nil] at *
          omega
        · rw [← List.append_assoc]; exact List.Perm.append_right [c] hp
        · intro x hx e' he'
          rcases List.mem_append.mp hx with h' | h'
          · exact hb x h' e' he'
          · simp at h'; subst h'
            rcases List.mem_cons.mp he' with h'' | h''
            · subst h''; exact hc'
            · exact hw.trans e' f x (hmax e' h'') hc'

theorem offerAll_spec {α : Type} {lt : α → α → Bool} (hw : Weak lt) {H : StdHeap α lt} {k : Nat} (hk : 0 < k) :
    ∀ (cs heap off : List α), HInv H k heap off → ∃ heap', offerAll H k cs heap = some heap' ∧ HInv H k heap' (off ++ cs) := by
  intro cs
  induction cs with
  | nil => intro heap off h; exact ⟨heap, rfl, by simpa using h⟩
  | cons c cs ih =>
    intro heap off h
    obtain ⟨h1, e1, i1⟩ := h.offer hw hk c
    obtain ⟨h2, e2, i2⟩ := ih h1 _ i1
    refine ⟨h2, ?_, by simpa using i2⟩
    simp only [offerAll, e1, e2]

/-- The selection holds the `k` best candidates in order, and no empty front is read. -/
theorem select_spec {α : Type} {lt : α → α → Bool} (hw : Weak lt) (H : StdHeap α lt) {k : Nat} (hk : 0 < k) (cs : List α) :
    ∃ out, select H k cs = some out ∧ Best (leOf lt) k out cs := by
  obtain ⟨heap, e, hh, hl, rest, hp, hb⟩ := offerAll_spec hw (H := H) hk cs [] [] (HInv.nil H k)
  rw [List.nil_append] at hl hp
  refine ⟨H.sort heap, by unfold select; rw [e]; rfl, H.sort_sorted _, ?_, rest, ?_, ?_⟩
  · rw [(H.sort_perm _).length_eq, hl]
  · exact hp.trans (List.Perm.append_right rest (H.sort_perm heap).symm)
  · intro r hr e' he'
    exact hb r hr e' ((H.sort_perm heap).mem_iff.mp he')

/-- Insertion sort with respect to `lt`. -/
def insBy {α : Type} (lt : α → α → Bool) (x : α) : List α → List α
  | [] => [x]
  | y :: ys => if lt x y then x :: y :: ys else y :: insBy lt x ys

def isort {α : Type} (lt : α → α → Bool) : List α → List α
  | [] => []
  | x :: xs => insBy lt x (isort lt xs)

theorem insBy_perm {α : Type} (lt : α → α → Bool) (x : α) : ∀ l, (insBy lt x l).Perm (x :: l) := by
  intro l
  induction l with
  | nil => exact List.Perm.refl _
  | cons y ys ih =>
    unfold insBy
    split
    · exact List.Perm.refl _
    · exact (ih.cons y).trans (List.Perm.swap x y ys)

theorem isort_perm {α : Type} (lt : α → α → Bool) : ∀ l, (isort lt l).Perm l := by
  intro l
  induction l with
  | nil => exact List.Perm.refl _
  | cons x xs ih => exact (insBy_perm lt x _).trans (ih.cons x)

theorem insBy_sorted {α : Type} {lt : α → α → Bool} (hw : Weak lt) (x : α) : ∀ l : List α,
    l.Pairwise (fun a b => lt b a = false) → (insBy lt x l).Pairwise (fun a b => lt b a = false) := by
  intro l
  induction l with
  | nil => intro _; simp [insBy]
  | cons y ys ih =>
    intro h
    have h' := List.pairwise_cons.mp h
    unfold insBy
    split
    · rename_i hlt
      refine List.pairwise_cons.mpr ⟨?_, h⟩
      intro z hz
      rcases List.mem_cons.mp hz with e | e
      · subst e; exact hw.asym _ _ hlt
      · exact hw.trans x y z (hw.asym _ _ hlt) (h'.1 z e)
    · rename_i hlt
      refine List.pairwise_cons.mpr ⟨?_, ih h'.2⟩
      intro z hz
      rcases List.mem_cons.mp ((insBy_perm lt x ys).mem_iff.mp hz) with e | e
      · subst e; simpa using hlt
      · exact h'.1 z e

theorem isort_sorted {α : Type} {lt : α → α → Bool} (hw : Weak lt) : ∀ l : List α,
    (isort lt l).Pairwise (fun a b => lt b a = false) := by
  intro l
  induction l with
  | nil => exact List.Pairwise.nil
  | cons x xs ih => exact insBy_sorted hw x _ ih

/-- The contract can be met: a heap kept in descending order. -/
def sortedHeap {α : Type} {lt : α → α → Bool} (hw : Weak lt) : StdHeap α lt where
  isHeap l := l.Pairwise (fun a b => lt a b = false)
  push l := (isort lt l).reverse
  pop l := l.tail ++ l.head?.toList
  sort l := isort lt l
  heap_nil := List.Pairwise.nil
  push_perm l := (List.reverse_perm _).trans (isort_perm lt l)
  push_heap l x _ := by
    show ((isort lt (l ++ [x])).reverse).Pairwise _
    rw [List.pairwise_reverse]
    exact isort_sorted hw _
  pop_spec f r h := ⟨r, by simp, List.Perm.refl _, (List.pairwise_cons.mp h).2⟩
  front_max f r h x hx := (List.pairwise_cons.mp h).1 x hx
  sort_perm l := isort_perm lt l
  sort_sorted l := isort_sorted hw l

end Alaya.TopK

namespace Alaya.TopK
open Spec

/-- For an antisymmetric order the best `k` of the same candidates, however they are ordered, are the same list. -/
theorem Best.unique {α : Type} {lt : α → α → Bool} (hw : Weak lt) (ha : ∀ a b, leOf lt a b → leOf lt b a → a = b)
    {k : Nat} {a b off off' : List α} (h1 : Best (leOf lt) k a off) (h2 : Best (leOf lt) k b off') (hp : off.Perm off') : a = b := by
  obtain ⟨s1, l1, r1, p1, b1⟩ := h1
  obtain ⟨s2, l2, r2, p2, b2⟩ := h2
  have srt : ∀ (c r : List α), c.Pairwise (leOf lt) → (∀ x ∈ r, ∀ e ∈ c, leOf lt e x) →
      (c ++ isort lt r).Pairwise (leOf lt) := by
    intro c r hc hr
    rw [List.pairwise_append]
    exact ⟨hc, isort_sorted hw r, fun e he x hx => hr x ((isort_perm lt r).mem_iff.mp hx) e he⟩
  have hperm : (a ++ isort lt r1).Perm (b ++ isort lt r2) :=
    ((List.Perm.append_left a (isort_perm lt r1)).trans p1.symm).trans
      (hp.trans (p2.trans (List.Perm.append_left b (isort_perm lt r2).symm)))
  have heq := List.Perm.eq_of_pairwise (le := leOf lt) (fun x y _ _ h h' => ha x y h h') (srt a r1 s1 b1) (srt b r2 s2 b2) hperm
  have hlen : a.length = b.length := by rw [l1, l2, hp.length_eq]
  have := congrArg (List.take a.length) heq
  rw [List.take_left] at this
  rw [this, hlen, List.take_left]

theorem Best.take_isort {α : Type} {lt : α → α → Bool} (hw : Weak lt) (k : Nat) (cs : List α) :
    Best (leOf lt) k ((isort lt cs).take k) cs := by
  have hs : (isort lt cs).Pairwise (leOf lt) := isort_sorted hw cs
  refine ⟨hs.sublist (List.take_sublist _ _), ?_, (isort lt cs).drop k, ?_, ?_⟩
  · rw [List.length_take, (isort_perm lt cs).length_eq]
  · rw [List.take_append_drop]; exact (isort_perm lt cs).symm
  · intro r hr e he
    have := hs
    rw [← List.take_append_drop k (isort lt cs), List.pairwise_append] at this
    exact this.2.2 e he r hr

theorem Hit.antisymm (a b : Hit) (h1 : leOf Hit.lt a b) (h2 : leOf Hit.lt b a) : a = b := by
  rw [Hit.le_iff] at h1 h2
  cases a; cases b
  simp only [Hit.mk.injEq] at *
  omega

/-- Ascending `(distance, label)` and nothing better left out: the meaning of `leOf Hit.lt` spelled out. -/
def hitLe (a b : Hit) : Prop := a.dist < b.dist ∨ (a.dist = b.dist ∧ a.label ≤ b.label)

theorem leOf_hitLe : leOf Hit.lt = hitLe := by
  funext a b
  exact propext (Hit.le_iff a b)

end Alaya.TopK
