import Verif.Spec.Rest

/-!
# Lemmas about the REST service
-/

namespace Alaya.Rest

open Alaya.PyParams (Name okDtype)

section
variable {N V M J R : Type}

theorem isIn_iff (w t : Name) : isIn w t = true ↔ w <:+: t := by
  induction t with
  | nil =>
    simp only [isIn, List.isPrefixOf_iff_prefix, List.prefix_nil, List.infix_nil]
  | cons c t ih =>
    simp only [isIn, Bool.or_eq_true, List.isPrefixOf_iff_prefix, ih, List.infix_cons_iff]

theorem isIn_end (w h : Name) : isIn w (h ++ w) = true := (isIn_iff _ _).mpr ⟨h, [], by simp⟩

theorem showInt_inj {i j : Int} (h : showInt i = showInt j) : i = j := by
  have hd : ∀ m : Nat, ('-' : Char) ∉ Nat.toDigits 10 m := by
    intro m hm
    have := Nat.isDigit_of_mem_toDigits (by decide) (by decide) hm
    exact absurd this (by decide)
  have hn : ∀ a b : Nat, Nat.toDigits 10 a = Nat.toDigits 10 b → a = b := by
    intro a b e
    have := congrArg (fun l => Nat.ofDigitChars 10 l 0) e
    simpa [Nat.ofDigitChars_ten_toDigits] using this
  unfold showInt at h
  split at h <;> split at h
  · have := hn _ _ (List.cons.inj h).2; omega
  · exact absurd (h ▸ List.mem_cons_self) (hd _)
  · exact absurd (h ▸ List.mem_cons_self) (hd _)
  · have := hn _ _ h; omega

theorem look_mem {n : Name} {c : Coll N} {l : List (Name × Coll N)} (h : look n l = some c) : (n, c) ∈ l := by
  induction l with
  | nil => simp [look] at h
  | cons p t ih =>
    obtain ⟨k, d⟩ := p
    simp only [look] at h
    split at h
    · next e => simp_all
    · exact List.mem_cons_of_mem _ (ih h)

theorem look_none {n : Name} {l : List (Name × Coll N)} : look n l = none ↔ n ∉ l.map Prod.fst := by
  induction l with
  | nil => simp [look]
  | cons p t ih =>
    obtain ⟨k, d⟩ := p
    simp only [look, List.map_cons, List.mem_cons, not_or]
    split
    · next e => simp [e]
    · next e => rw [ih]; exact ⟨fun h => ⟨fun e' => e e'.symm, h⟩, fun h => h.2⟩

theorem look_of_mem {n : Name} {c : Coll N} {l : List (Name × Coll N)} (hn : (l.map Prod.fst).Nodup) (h : (n, c) ∈ l) :
    look n l = some c := by
  induction l with
  | nil => cases h
  | cons p t ih =>
    obtain ⟨k, d⟩ := p
    simp only [List.map_cons, List.nodup_cons] at hn
    simp only [look]
    rcases List.mem_cons.mp h with e | e
    · cases e; simp
    · have hk : k ≠ n := fun e' => hn.1 (e' ▸ List.mem_map_of_mem (f := Prod.fst) e)
      rw [if_neg hk]; exact ih hn.2 e

theorem put_names (n : Name) (c : Coll N) (l : List (Name × Coll N)) : (put n c l).map Prod.fst = l.map Prod.fst := by
  induction l with
  | nil => rfl
  | cons p t ih => obtain ⟨k, d⟩ := p; simp only [put]; split <;> simp_all

theorem put_same {n : Name} {c : Coll N} {l : List (Name × Coll N)} (h : look n l = some c) : put n c l = l := by
  induction l with
  | nil => rfl
  | cons p t ih =>
    obtain ⟨k, d⟩ := p
    simp only [look] at h
    simp only [put]
    split
    · next e => rw [if_pos e] at h; cases h; rfl
    · next e => rw [if_neg e] at h; rw [ih h]

theorem look_put {n : Name} {c d : Coll N} {l : List (Name × Coll N)} (h : look n l = some d) : look n (put n c l) = some c := by
  induction l with
  | nil => simp [look] at h
  | cons p t ih =>
    obtain ⟨k, e⟩ := p
    simp only [look] at h
    simp only [put]
    split
    · next e' => simp [look, e']
    · next e' => rw [if_neg e'] at h; simp [look, e', ih h]

theorem look_put_ne {n m : Name} (hm : m ≠ n) (c : Coll N) (l : List (Name × Coll N)) : look m (put n c l) = look m l := by
  induction l with
  | nil => rfl
  | cons p t ih =>
    obtain ⟨k, e⟩ := p
    simp only [put]
    split
    · next e' => subst e'; simp [look, Ne.symm hm]
    · simp [look, ih]

theorem drop_names (n : Name) (l : List (Name × Coll N)) (hn : (l.map Prod.fst).Nodup) :
    (drop n l).map Prod.fst = (l.map Prod.fst).filter (· ≠ n) := by
  induction l with
  | nil => rfl
  | cons p t ih =>
    obtain ⟨k, e⟩ := p
    simp only [List.map_cons, List.nodup_cons] at hn
    simp only [drop]
    split
    · next e' =>
      subst e'
      simp only [List.map_cons, ne_eq, not_true_eq_false, decide_false, Bool.false_eq_true, not_false_eq_true,
        List.filter_cons_of_neg]
      exact (List.filter_eq_self.mpr (fun a ha => by
        have : a ≠ k := fun e => hn.1 (e ▸ ha)
        simpa using this)).symm
    · next e' => simp [e', ih hn.2]

theorem look_drop_ne {n m : Name} (hm : m ≠ n) (l : List (Name × Coll N)) : look m (drop n l) = look m l := by
  induction l with
  | nil => rfl
  | cons p t ih =>
    obtain ⟨k, e⟩ := p
    simp only [drop]
    split
    · next e' => subst e'; simp [look, Ne.symm hm]
    · simp [look, ih]

theorem look_append_ne {n m : Name} (hm : m ≠ n) (c : Coll N) (l : List (Name × Coll N)) :
    look m (l ++ [(n, c)]) = look m l := by
  induction l with
  | nil => simp [look, Ne.symm hm]
  | cons p t ih => obtain ⟨k, e⟩ := p; simp [look, ih]

theorem look_append_new {n : Name} (c : Coll N) {l : List (Name × Coll N)} (h : look n l = none) :
    look n (l ++ [(n, c)]) = some c := by
  induction l with
  | nil => simp [look]
  | cons p t ih =>
    obtain ⟨k, e⟩ := p
    simp only [look] at h
    split at h
    · cases h
    · next e' => simp [look, e', ih h]

theorem mem_put {n m : Name} {c d : Coll N} {l : List (Name × Coll N)} (h : (m, d) ∈ put n c l) :
    (m, d) ∈ l ∨ (m = n ∧ d = c) := by
  induction l with
  | nil => cases h
  | cons p t ih =>
    obtain ⟨k, e⟩ := p
    simp only [put] at h
    split at h
    · next e' =>
      rcases List.mem_cons.mp h with h | h
      · cases h; exact Or.inr ⟨e', rfl⟩
      · exact Or.inl (List.mem_cons_of_mem _ h)
    · rcases List.mem_cons.mp h with h | h
      · cases h; exact Or.inl List.mem_cons_self
      · rcases ih h with h | h
        · exact Or.inl (List.mem_cons_of_mem _ h)
        · exact Or.inr h

theorem mem_drop {n : Name} {p : Name × Coll N} {l : List (Name × Coll N)} (h : p ∈ drop n l) : p ∈ l := by
  induction l with
  | nil => cases h
  | cons q t ih =>
    obtain ⟨k, e⟩ := q
    simp only [drop] at h
    split at h
    · exact List.mem_cons_of_mem _ h
    · rcases List.mem_cons.mp h with h | h
      · exact h ▸ List.mem_cons_self
      · exact List.mem_cons_of_mem _ (ih h)

theorem mem_addDir {n m : Name} {l : List Name} : m ∈ addDir n l ↔ m ∈ l ∨ m = n := by
  unfold addDir
  split
  · next h => exact ⟨Or.inl, fun h' => h'.elim id (fun e => e ▸ h)⟩
  · simp

theorem mem_rmDir {n m : Name} {l : List Name} : m ∈ rmDir n l ↔ m ∈ l ∧ m ≠ n := by simp [rmDir]

theorem addDir_nodup {n : Name} {l : List Name} (h : l.Nodup) : (addDir n l).Nodup := by
  unfold addDir
  split
  · exact h
  · next hn => exact List.nodup_append.mpr ⟨h, by simp, by
      intro a ha b hb e
      rw [List.mem_singleton.mp hb] at e
      exact hn (e ▸ ha)⟩

theorem rmDir_nodup {n : Name} {l : List Name} (h : l.Nodup) : (rmDir n l).Nodup := h.filter _

theorem rmAll_mem {env : Env} {ns dirs : List Name} {m : Name} (h : m ∈ (rmAll env ns dirs).1) : m ∈ dirs := by
  induction ns generalizing dirs with
  | nil => exact h
  | cons n t ih =>
    simp only [rmAll] at h
    split at h
    · exact (mem_rmDir.mp (ih h)).1
    · simp only at h
      split at h
      · exact (mem_rmDir.mp h).1
      · exact h

theorem rmAll_nodup {env : Env} {ns dirs : List Name} (h : dirs.Nodup) : (rmAll env ns dirs).1.Nodup := by
  induction ns generalizing dirs with
  | nil => exact h
  | cons n t ih =>
    simp only [rmAll]
    split
    · exact ih (rmDir_nodup h)
    · simp only
      split
      · exact rmDir_nodup h
      · exact h

theorem rmAll_none {env : Env} {ns dirs : List Name} (h : (rmAll env ns dirs).2 = none) {m : Name} (hm : m ∈ ns) :
    m ∉ (rmAll env ns dirs).1 := by
  induction ns generalizing dirs with
  | nil => cases hm
  | cons n t ih =>
    simp only [rmAll] at h ⊢
    split at h
    · next e =>
      rcases List.mem_cons.mp hm with rfl | hm
      · exact fun hc => (mem_rmDir.mp (rmAll_mem hc)).2 rfl
      · exact ih h hm
    · cases h

theorem rmAll_calm {env : Env} (hc : env.Calm) (ns dirs : List Name) : (rmAll env ns dirs).2 = none := by
  induction ns generalizing dirs with
  | nil => rfl
  | cons n t ih => simp only [rmAll, hc n]; exact ih _

theorem each_split {A : Type} (f : N → A → N × Option Exn) (x : N) (l : List A) :
    (∃ y, Took f x l y ∧ each f x l = (y, none)) ∨
    ∃ pre a post y z e, l = pre ++ a :: post ∧ Took f x pre y ∧ f y a = (z, some e) ∧ each f x l = (z, some e) := by
  induction l generalizing x with
  | nil => exact Or.inl ⟨x, .nil x, rfl⟩
  | cons a t ih =>
    rcases hf : f x a with ⟨y, r⟩
    cases r with
    | some e => exact Or.inr ⟨[], a, t, x, y, e, rfl, .nil x, hf, by simp [each, hf]⟩
    | none =>
      rcases ih y with ⟨z, h1, h2⟩ | ⟨pre, b, post, u, v, e, h1, h2, h3, h4⟩
      · exact Or.inl ⟨z, .cons hf h1, by simp [each, hf, h2]⟩
      · exact Or.inr ⟨a :: pre, b, post, u, v, e, by simp [h1], .cons hf h2, h3, by simp [each, hf, h4]⟩

theorem tryRemove_none {B : Backend N V M J R} {x y : N} {id : Name} : tryRemove B x id = (y, none) ↔ Attempt B x id y := by
  unfold tryRemove Attempt
  rcases h : B.remove x id with ⟨z, r⟩
  cases r with
  | none => simp
  | some e => cases hr : e.runtime <;> simp [hr]

theorem took_attempts {B : Backend N V M J R} {x y : N} {ids : List Name} (h : Took (tryRemove B) x ids y) :
    Attempts B x ids y := by
  induction h with
  | nil x => exact .nil x
  | cons h1 _ ih => exact .cons (tryRemove_none.mp h1) ih

end

end Alaya.Rest
