import Verif.Model.PQTable
import Verif.Lemmas.ParFor
import Mathlib.Data.List.GetD

/- Lists in product quantisation. -/
namespace Alaya.PQ

theorem each_map {α β : Type} {f : α → Option β} {g : α → β} : ∀ {l : List α}, (∀ a, a ∈ l → f a = some (g a)) → each f l = some (l.map g)
  | [], _ => rfl
  | a :: l, h => by
    unfold each
    rw [h a (List.mem_cons_self ..), each_map (fun b hb => h b (List.mem_cons_of_mem _ hb))]
    rfl

theorem each_some {α β : Type} {f : α → Option β} : ∀ {l : List α} {r : List β}, each f l = some r → r.length = l.length ∧
    ∀ (i : Nat) (a : α), l[i]? = some a → ∃ b, r[i]? = some b ∧ f a = some b
  | [], r, h => by simp [each] at h; subst h; simp
  | a :: l, r, h => by
    unfold each at h
    split at h
    · simp at h
    · rename_i b hb
      split at h
      · simp at h
      · rename_i bs hbs
        injection h with h
        subst h
        obtain ⟨h1, h2⟩ := each_some hbs
        refine ⟨by simp [h1], ?_⟩
        intro i x hx
        cases i with
        | zero => simp at hx; subst hx; exact ⟨b, rfl, hb⟩
        | succ i => exact h2 i x (by simpa using hx)

theorem each_mem {α β : Type} {f : α → Option β} {l : List α} {r : List β} (h : each f l = some r) (b : β) (hb : b ∈ r) : ∃ a, a ∈ l ∧ f a = some b := by
  obtain ⟨h1, h2⟩ := each_some h
  obtain ⟨i, hi⟩ := List.mem_iff_getElem?.1 hb
  have hlt : i < l.length := by
    rw [← h1]; exact (List.getElem?_eq_some_iff.1 hi).1
  obtain ⟨c, hc, hf⟩ := h2 i l[i] (List.getElem?_eq_getElem hlt)
  rw [hc] at hi
  injection hi with hi
  subst hi
  exact ⟨l[i], List.getElem_mem hlt, hf⟩

theorem each_congr {α β : Type} {f g : α → Option β} : ∀ {l : List α}, (∀ a, a ∈ l → f a = g a) → each f l = each g l
  | [], _ => rfl
  | a :: l, h => by
    unfold each
    rw [h a (List.mem_cons_self ..), each_congr (l := l) (fun b hb => h b (List.mem_cons_of_mem _ hb))]

theorem each_append {α β : Type} {f : α → Option β} : ∀ {l1 l2 : List α} {r1 r2 : List β}, each f l1 = some r1 → each f l2 = some r2 →
    each f (l1 ++ l2) = some (r1 ++ r2)
  | [], l2, r1, r2, h1, h2 => by simp [each] at h1; subst h1; simpa using h2
  | a :: l1, l2, r1, r2, h1, h2 => by
    unfold each at h1
    split at h1
    · simp at h1
    · rename_i b hb
      split at h1
      · simp at h1
      · rename_i bs hbs
        injection h1 with h1
        subst h1
        simp only [List.cons_append]
        unfold each
        rw [hb, each_append hbs h2]

theorem each_take_drop {α β : Type} {f : α → Option β} {l : List α} {r : List β} (n : Nat) (h : each f l = some r) :
    each f (l.take n) = some (r.take n) ∧ each f (l.drop n) = some (r.drop n) := by
  induction n generalizing l r with
  | zero => simp [each, h]
  | succ n ih =>
    cases l with
    | nil => simp [each] at h; subst h; simp [each]
    | cons a l =>
      unfold each at h
      split at h
      · simp at h
      · rename_i b hb
        split at h
        · simp at h
        · rename_i bs hbs
          injection h with h
          subst h
          obtain ⟨h1, h2⟩ := ih hbs
          refine ⟨?_, by simpa using h2⟩
          simp only [List.take_succ_cons]
          unfold each
          rw [hb, h1]

theorem each_id {α : Type} {l : List α} : each id (l.map some) = some l := by
  have : each (fun a : Option α => a) (l.map some) = some l := by
    induction l with
    | nil => rfl
    | cons a l ih => simp only [List.map_cons]; unfold each; simp only [ih]
  exact this

theorem loop_foldl {α σ : Type} {f : σ → α → Option σ} {g : σ → α → σ} : ∀ {l : List α} {s : σ}, (∀ s a, a ∈ l → f s a = some (g s a)) →
    loop f l s = some (l.foldl g s)
  | [], s, _ => rfl
  | a :: l, s, h => by
    unfold loop
    rw [h s a (List.mem_cons_self ..)]
    exact loop_foldl (fun s b hb => h s b (List.mem_cons_of_mem _ hb))

theorem foldl_congr {α σ : Type} {f g : σ → α → σ} : ∀ {l : List α} {s : σ}, (∀ s a, a ∈ l → f s a = g s a) → l.foldl f s = l.foldl g s
  | [], _, _ => rfl
  | a :: l, s, h => by
    simp only [List.foldl_cons]
    rw [h s a (List.mem_cons_self ..)]
    exact foldl_congr (fun s b hb => h s b (List.mem_cons_of_mem _ hb))

/-! ### Slices -/

theorem slice_eq {α : Type} {l : List α} {off n : Nat} (h : off + n ≤ l.length) : slice l off n = some ((l.drop off).take n) := by
  unfold slice; rw [if_pos h]

theorem slice_some {α : Type} {l r : List α} {off n : Nat} (h : slice l off n = some r) : off + n ≤ l.length ∧ r = (l.drop off).take n := by
  unfold slice at h
  split at h
  · rename_i h1; injection h with h; exact ⟨h1, h.symm⟩
  · simp at h

theorem slice_len {α : Type} {l r : List α} {off n : Nat} (h : slice l off n = some r) : r.length = n := by
  obtain ⟨h1, h2⟩ := slice_some h
  rw [h2, List.length_take, List.length_drop]; omega

theorem take_drop_get {α : Type} (l : List α) (off n j : Nat) (hj : j < n) : ((l.drop off).take n)[j]? = l[off + j]? := by
  rw [List.getElem?_take_of_lt hj, List.getElem?_drop]

theorem take_drop_getD {α : Type} (l : List α) (off n j : Nat) (z : α) (hj : j < n) : ((l.drop off).take n).getD j z = l.getD (off + j) z := by
  rw [List.getD_eq_getElem?_getD, List.getD_eq_getElem?_getD, take_drop_get l off n j hj]

theorem getElem?_getD {α : Type} {l : List α} {i : Nat} (h : i < l.length) (z : α) : l[i]? = some (l.getD i z) := by
  rw [List.getElem?_eq_getElem h, List.getD_eq_getElem _ _ h]

/-- Lists of rows of the same length. -/
theorem flatten_len {α : Type} {w : Nat} : ∀ {rows : List (List α)}, (∀ r, r ∈ rows → r.length = w) → rows.flatten.length = rows.length * w
  | [], _ => by simp
  | r :: rows, h => by
    rw [List.flatten_cons, List.length_append, flatten_len (fun x hx => h x (List.mem_cons_of_mem _ hx)), h r (List.mem_cons_self ..),
      List.length_cons, Nat.succ_mul, Nat.add_comm]

theorem flatten_get {α : Type} {w : Nat} : ∀ {rows : List (List α)} (i j : Nat) (r : List α), (∀ r, r ∈ rows → r.length = w) → j < w →
    rows[i]? = some r → rows.flatten[i * w + j]? = r[j]?
  | [], i, j, r, _, _, h => by simp at h
  | x :: rows, 0, j, r, h, hj, hr => by
    simp at hr
    subst hr
    rw [List.flatten_cons, Nat.zero_mul, Nat.zero_add, List.getElem?_append_left (by rw [h x (List.mem_cons_self ..)]; exact hj)]
  | x :: rows, i + 1, j, r, h, hj, hr => by
    have hx := h x (List.mem_cons_self ..)
    rw [List.flatten_cons, List.getElem?_append_right (by rw [hx, Nat.succ_mul]; omega)]
    have : (i + 1) * w + j - x.length = i * w + j := by rw [hx, Nat.succ_mul]; omega
    rw [this]
    exact flatten_get i j r (fun y hy => h y (List.mem_cons_of_mem _ hy)) hj (by simpa using hr)

theorem flatten_row {α : Type} {w : Nat} {rows : List (List α)} (i : Nat) (r : List α) (h : ∀ r, r ∈ rows → r.length = w)
    (hr : rows[i]? = some r) : (rows.flatten.drop (i * w)).take w = r := by
  apply List.ext_getElem?
  intro j
  by_cases hj : j < w
  · rw [take_drop_get _ _ _ _ hj, flatten_get i j r h hj hr]
  · have h1 := h r (List.mem_of_getElem? hr)
    rw [List.getElem?_eq_none (by rw [List.length_take]; omega), List.getElem?_eq_none (by omega)]

theorem row_bound {a n w : Nat} (h : a < n) : a * w + w ≤ n * w := by
  have := Nat.mul_le_mul_right w (Nat.succ_le_of_lt h)
  rw [Nat.succ_mul] at this; exact this

/-! ### Nearest centroid -/

/-- The loop of `argmin_centroid`. -/
def best {F : Type} (A : Ar F) (m : Nat) (d : Nat → F) : F × Nat :=
  (List.range m).foldl (fun (b : F × Nat) k => if A.lt (d k) b.1 then (d k, k) else b) (A.big, 0)

theorem best_succ {F : Type} (A : Ar F) (m : Nat) (d : Nat → F) :
    best A (m + 1) d = if A.lt (d m) (best A m d).1 then (d m, m) else best A m d := by
  unfold best; rw [List.range_succ, List.foldl_append]; rfl

theorem best_congr {F : Type} (A : Ar F) (m : Nat) (d e : Nat → F) (h : ∀ k, k < m → d k = e k) : best A m d = best A m e := by
  unfold best
  exact foldl_congr (fun s a ha => by rw [h a (List.mem_range.1 ha)])

theorem best_lt {F : Type} (A : Ar F) (d : Nat → F) : ∀ m, 0 < m → (best A m d).2 < m
  | 0, h => absurd h (Nat.lt_irrefl _)
  | 1, _ => by rw [best_succ]; split <;> simp [best]
  | m + 2, _ => by
    have := best_lt A d (m + 1) (Nat.succ_pos _)
    rw [best_succ]; split
    · simp
    · omega

/-- Comparison of floats without NaN. -/
structure Ordered {F : Type} (A : Ar F) : Prop where
  irrefl : ∀ x, A.lt x x = false
  trans : ∀ x y z, A.lt x y = true → A.lt y z = true → A.lt x z = true
  ntrans : ∀ x y z, A.lt x y = false → A.lt y z = false → A.lt x z = false

theorem best_spec {F : Type} {A : Ar F} (O : Ordered A) (d : Nat → F) : ∀ m,
    (best A m d = (A.big, 0) ∧ ∀ j, j < m → A.lt (d j) A.big = false) ∨
    ((best A m d).2 < m ∧ (best A m d).1 = d (best A m d).2 ∧ A.lt (d (best A m d).2) A.big = true ∧
      (∀ j, j < m → A.lt (d j) (d (best A m d).2) = false) ∧ ∀ j, j < (best A m d).2 → A.lt (d (best A m d).2) (d j) = true)
  | 0 => Or.inl ⟨rfl, fun j hj => absurd hj (Nat.not_lt_zero _)⟩
  | m + 1 => by
    rw [best_succ]
    have key : ∀ x y z, A.lt x z = true → A.lt y z = false → A.lt x y = true := by
      intro x y z h1 h2
      cases hh : A.lt x y with
      | true => rfl
      | false => rw [O.ntrans x y z hh h2] at h1; simp at h1
    have key2 : ∀ x y z, A.lt x z = true → A.lt y z = false → A.lt y x = false := by
      intro x y z h1 h2
      cases hh : A.lt y x with
      | false => rfl
      | true => rw [O.trans y x z hh h1] at h2; simp at h2
    rcases best_spec O d m with ⟨h1, h2⟩ | ⟨h1, h2, h3, h4, h5⟩
    · rw [h1]
      cases hlt : A.lt (d m) A.big with
      | false =>
        left
        refine ⟨by simp, fun j hj => ?_⟩
        rcases Nat.lt_succ_iff_lt_or_eq.1 hj with h | h
        · exact h2 j h
        · rw [h]; exact hlt
      | true =>
        right
        simp only [if_true]
        refine ⟨Nat.lt_succ_self _, trivial, hlt, fun j hj => ?_, fun j hj => key _ _ _ hlt (h2 j hj)⟩
        rcases Nat.lt_succ_iff_lt_or_eq.1 hj with h | h
        · exact key2 _ _ _ hlt (h2 j h)
        · rw [h]; exact O.irrefl _
    · right
      rw [h2]
      cases hlt : A.lt (d m) (d (best A m d).2) with
      | false =>
        simp only [Bool.false_eq_true, if_false]
        refine ⟨Nat.lt_succ_of_lt h1, h2, h3, fun j hj => ?_, h5⟩
        rcases Nat.lt_succ_iff_lt_or_eq.1 hj with h | h
        · exact h4 j h
        · rw [h]; exact hlt
      | true =>
        simp only [if_true]
        refine ⟨Nat.lt_succ_self _, trivial, O.trans _ _ _ hlt h3, fun j hj => ?_, fun j hj => key _ _ _ hlt (h4 j hj)⟩
        rcases Nat.lt_succ_iff_lt_or_eq.1 hj with h | h
        · exact key2 _ _ _ hlt (h4 j h)
        · rw [h]; exact O.irrefl _

/-- Centroid `k` of a block. -/
def cen {F : Type} (cd : Nat) (block : List F) (k : Nat) : List F := (block.drop (k * cd)).take cd

theorem cent_eq {F : Type} {cd : Nat} {block : List F} {k : Nat} (hb : block.length = 256 * cd) (hk : k < 256) :
    cent cd block k = some (cen cd block k) := by
  unfold cent cen
  exact slice_eq (by rw [hb]; exact row_bound hk)

theorem argmin_eq {F : Type} (A : Ar F) {cd : Nat} {p block : List F} (hb : block.length = 256 * cd) :
    argmin A cd p block = some (best A 256 (fun k => A.l2 p (cen cd block k))).2 := by
  unfold argmin
  rw [loop_foldl (g := fun (b : F × Nat) k => if A.lt (A.l2 p (cen cd block k)) b.1 then (A.l2 p (cen cd block k), k) else b)]
  · rfl
  · intro s a ha
    rw [cent_eq hb (List.mem_range.1 ha)]
    rfl

end Alaya.PQ
