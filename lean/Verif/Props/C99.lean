import Verif.Lemmas.Rest

/-!
# C99: The REST service

Whatever the native index and the file system do.
-/

namespace Alaya.Rest

open Alaya.PyParams (Name okDtype)

section
variable {N V M J R : Type} (B : Backend N V M J R)

/-- Creating a collection is answered 200 exactly if no collection or index has the name; it is then listed
last, empty, and everything else is as before.  Otherwise the answer is 409 and nothing happens. -/
theorem C99_create (env : Env) (s : Svc N) (n : Name) :
    (n ∉ s.names → n ∉ s.inds →
      statusOf (handle B env s (.create n)) = some 200 ∧
      (handle B env s (.create n)).2.names = s.names ++ [n] ∧
      Has (handle B env s (.create n)).2 n ⟨none, none⟩ ∧
      (handle B env s (.create n)).2.dirs = s.dirs) ∧
    (n ∈ s.names ∨ n ∈ s.inds →
      statusOf (handle B env s (.create n)) = some 409 ∧ (handle B env s (.create n)).2 = s) := by
  constructor
  · intro h1 h2
    have h : ¬ (n ∈ s.cols.map Prod.fst ∨ n ∈ s.inds) := by rintro (h | h); exacts [h1 h, h2 h]
    simp only [handle, if_neg h]
    exact ⟨rfl, by simp [Svc.names], by simp [Has], trivial⟩
  · intro h
    have h' : (n ∈ s.cols.map Prod.fst ∨ n ∈ s.inds) := h
    simp only [handle, if_pos h', statusOf, createError, Option.map_some]
    have : isIn alreadyExists (createHead ++ n ++ quoteSp ++ alreadyExists) = true := isIn_end _ _
    simp [-List.append_assoc, this]

/-- `list` answers with the names and changes nothing. -/
theorem C99_list_request (env : Env) (s : Svc N) :
    handle B env s .list = (some ⟨200, .names s.names⟩, s) := rfl

/-- A request about a collection the service does not have is answered 404 and changes nothing. -/
theorem C99_missing (env : Env) (s : Svc N) (r : Req V M J) (n : Name) (hr : r.needs = some n) (hn : n ∉ s.names) :
    statusOf (handle B env s r) = some 404 ∧ (handle B env s r).2 = s := by
  have hl : look n s.cols = none := look_none.mpr hn
  have hp : ∀ h : Name, isIn doesNotExist (h ++ quoteSp ++ doesNotExist) = true := fun h => isIn_end _ _
  cases r <;> simp only [Req.needs, Option.some.injEq, reduceCtorEq] at hr <;> subst hr <;>
    simp [-List.append_assoc, handle, hl, statusOf, missing, nameError, hp]

/-- A request about a collection the service has is not answered 404, if no failure of the native index or
the file system speaks of something that "does not exist". -/
theorem C99_found (env : Env) (s : Svc N) (r : Req V M J) (n : Name) (hr : r.needs = some n) (hn : n ∈ s.names)
    (h1 : ∀ k g e, env.rmtree k = some (g, e) → Silent e) (h2 : ∀ k e, env.mkdir k = some e → Silent e)
    (h3 : ∀ k e, env.schema k = some e → Silent e) (h4 : ∀ x e, B.save x = some e → Silent e) :
    statusOf (handle B env s r) ≠ some 404 := by
  have hs : ∀ {e : Exn}, Silent e → isIn doesNotExist e.msg = false := by
    intro e he
    cases hb : isIn doesNotExist e.msg with
    | false => rfl
    | true => exact absurd ((isIn_iff _ _).mp hb) he
  obtain ⟨c, hl⟩ : ∃ c, look n s.cols = some c := by
    cases h : look n s.cols with
    | none => exact absurd hn (look_none.mp h)
    | some c => exact ⟨c, rfl⟩
  cases r <;> simp only [Req.needs, Option.some.injEq, reduceCtorEq] at hr <;> subst hr <;> simp only [handle, hl]
  case setMetric => cases c.index <;> simp [statusOf, ok, crash]
  case delete d =>
    split
    · split
      · simp [statusOf, ok]
      · next e => simp [statusOf, nameError, hs (h1 _ _ _ e)]
    · simp [statusOf, ok]
  case insert => split <;> simp [statusOf, ok, bad]
  case query => split <;> simp [statusOf, bad] ; split <;> simp [crash]
  case upsert => split <;> simp [statusOf, ok, bad]
  case deleteById => split <;> simp [statusOf, ok, bad]
  case deleteByFilter => split <;> simp [statusOf, ok, bad]
  case save =>
    split
    · next e he =>
      have : Silent e := by
        unfold collSave at he
        split at he
        · next h => cases he; exact h2 _ _ h
        · split at he
          · cases he; exact fun h => absurd ((isIn_iff _ _).mpr h) (by decide +kernel)
          · split at he
            · next h => cases he; exact h4 _ _ h
            · exact h3 _ _ he
      simp [statusOf, nameError, hs this]
    · simp [statusOf, ok]

/-- The answers are 200, 400, 404, 409 (only to `create`) and 500; 500 only for setting the metric of a collection
that has an index, for a reset whose removal of directories fails, and for query results without JSON form. -/
theorem C99_status (env : Env) (s : Svc N) (r : Req V M J) (k : Nat) (h : statusOf (handle B env s r) = some k) :
    k = 200 ∨ k = 400 ∨ k = 404 ∨ (k = 409 ∧ ∃ n, r = .create n ∧ (n ∈ s.names ∨ n ∈ s.inds)) ∨
    (k = 500 ∧ ((∃ n m c, r = .setMetric n m ∧ Has s n c ∧ c.index ≠ none) ∨
      (r = .reset (some true) ∧ ¬ env.Calm) ∨
      (∃ n vs l e t c x y, r = .query n vs l e t ∧ Has s n c ∧ c.index = some x ∧
        B.query x vs (l.getD 1) (e.getD 10) (t.getD 1) = .ok y ∧ B.json y = false))) := by
  have hnm : ∀ e : Exn, (nameError e : Reply R).status = 404 ∨ (nameError e : Reply R).status = 400 := by
    intro e; unfold nameError; split <;> simp
  cases r
  case create n =>
    simp only [handle] at h
    split at h
    · next h' =>
      simp only [statusOf, createError, Option.map_some, Option.some.injEq] at h
      split at h
      · exact Or.inr (Or.inr (Or.inr (Or.inl ⟨h.symm, n, rfl, h'⟩)))
      · exact Or.inr (Or.inl h.symm)
    · simp only [statusOf, ok, Option.map_some, Option.some.injEq] at h; exact Or.inl h.symm
  case setMetric n m =>
    simp only [handle] at h
    split at h
    · simp only [statusOf, missing, Option.map_some, Option.some.injEq] at h; exact Or.inr (Or.inr (Or.inl h.symm))
    · next c hl =>
      split at h
      · next x hx =>
        simp only [statusOf, crash, Option.map_some, Option.some.injEq] at h
        exact Or.inr (Or.inr (Or.inr (Or.inr ⟨h.symm, Or.inl ⟨n, m, c, rfl, look_mem hl, by simp [hx]⟩⟩)))
      · simp only [statusOf, ok, Option.map_some, Option.some.injEq] at h; exact Or.inl h.symm
  case list => simp only [handle, statusOf, Option.map_some, Option.some.injEq] at h; exact Or.inl h.symm
  case delete n d =>
    simp only [handle] at h
    split at h
    · simp only [statusOf, Option.map_some, Option.some.injEq] at h
      rcases hnm ⟨true, deleteHead ++ n ++ quoteSp ++ doesNotExist⟩ with h' | h' <;> rw [h'] at h <;> simp [← h]
    · split at h
      · split at h
        · simp only [statusOf, ok, Option.map_some, Option.some.injEq] at h; exact Or.inl h.symm
        · next e _ =>
          simp only [statusOf, Option.map_some, Option.some.injEq] at h
          rcases hnm e with h' | h' <;> rw [h'] at h <;> simp [← h]
      · simp only [statusOf, ok, Option.map_some, Option.some.injEq] at h; exact Or.inl h.symm
  case reset d =>
    simp only [handle] at h
    split at h
    · next hd =>
      split at h
      · simp only [statusOf, ok, Option.map_some, Option.some.injEq] at h; exact Or.inl h.symm
      · next dirs e he =>
        simp only [statusOf, crash, Option.map_some, Option.some.injEq] at h
        refine Or.inr (Or.inr (Or.inr (Or.inr ⟨h.symm, Or.inr (Or.inl ⟨?_, fun hc => ?_⟩)⟩)))
        · cases d with
          | none => cases hd
          | some b => simp only [Option.getD_some] at hd; rw [hd]
        · have := rmAll_calm hc (s.cols.map Prod.fst ++ s.inds) s.dirs
          rw [he] at this; cases this
    · simp only [statusOf, ok, Option.map_some, Option.some.injEq] at h; exact Or.inl h.symm
  case insert n items =>
    simp only [handle] at h
    split at h
    · simp only [statusOf, missing, Option.map_some, Option.some.injEq] at h; exact Or.inr (Or.inr (Or.inl h.symm))
    · split at h <;> simp only [statusOf, ok, bad, Option.map_some, Option.some.injEq] at h <;> simp [← h]
  case query n vs l e t =>
    simp only [handle] at h
    split at h
    · simp only [statusOf, missing, Option.map_some, Option.some.injEq] at h; exact Or.inr (Or.inr (Or.inl h.symm))
    · next c hl =>
      split at h
      · simp only [statusOf, bad, Option.map_some, Option.some.injEq] at h; exact Or.inr (Or.inl h.symm)
      · next y hy =>
        simp only [statusOf, Option.map_some, Option.some.injEq] at h
        split at h
        · exact Or.inl h.symm
        · next hj =>
          refine Or.inr (Or.inr (Or.inr (Or.inr ⟨h.symm, Or.inr (Or.inr ?_)⟩)))
          unfold collQuery at hy
          split at hy
          · cases hy
          · next x hx =>
            split at hy
            · cases hy
            · split at hy
              · cases hy
              · exact ⟨n, vs, l, e, t, c, x, y, rfl, look_mem hl, hx, hy, by simpa using hj⟩
  case upsert n items =>
    simp only [handle] at h
    split at h
    · simp only [statusOf, missing, Option.map_some, Option.some.injEq] at h; exact Or.inr (Or.inr (Or.inl h.symm))
    · split at h <;> simp only [statusOf, ok, bad, Option.map_some, Option.some.injEq] at h <;> simp [← h]
  case deleteById n ids =>
    simp only [handle] at h
    split at h
    · simp only [statusOf, missing, Option.map_some, Option.some.injEq] at h; exact Or.inr (Or.inr (Or.inl h.symm))
    · split at h <;> simp only [statusOf, ok, bad, Option.map_some, Option.some.injEq] at h <;> simp [← h]
  case deleteByFilter n f =>
    simp only [handle] at h
    split at h
    · simp only [statusOf, missing, Option.map_some, Option.some.injEq] at h; exact Or.inr (Or.inr (Or.inl h.symm))
    · split at h
      · cases h
      · simp only [statusOf, ok, Option.map_some, Option.some.injEq] at h; exact Or.inl h.symm
      · simp only [statusOf, bad, Option.map_some, Option.some.injEq] at h; exact Or.inr (Or.inl h.symm)
  case save n =>
    simp only [handle] at h
    split at h
    · simp only [statusOf, Option.map_some, Option.some.injEq] at h
      rcases hnm ⟨true, deleteHead ++ n ++ quoteSp ++ doesNotExist⟩ with h' | h' <;> rw [h'] at h <;> simp [← h]
    · split at h
      · next e _ =>
        simp only [statusOf, Option.map_some, Option.some.injEq] at h
        rcases hnm e with h' | h' <;> rw [h'] at h <;> simp [← h]
      · simp only [statusOf, ok, Option.map_some, Option.some.injEq] at h; exact Or.inl h.symm

/-- A request touches no other collection, neither in memory nor on disk; only `reset` touches all. -/
theorem C99_others (env : Env) (s : Svc N) (r : Req V M J) (hr : ∀ d, r ≠ .reset d) (m : Name)
    (hm : r.about ≠ some m) :
    look m (handle B env s r).2.cols = look m s.cols ∧ (m ∈ (handle B env s r).2.dirs ↔ m ∈ s.dirs) ∧
    (handle B env s r).2.inds = s.inds := by
  have hu : ∀ (n : Name) (c : Coll N) (w : Bool), m ≠ n →
      look m (update s n c w).cols = look m s.cols ∧ (m ∈ (update s n c w).dirs ↔ m ∈ s.dirs) ∧
      (update s n c w).inds = s.inds := by
    intro n c w hne
    refine ⟨look_put_ne hne _ _, ?_, rfl⟩
    simp only [update]
    split
    · rw [mem_addDir]; simp [hne]
    · rfl
  have hself : look m s.cols = look m s.cols ∧ (m ∈ s.dirs ↔ m ∈ s.dirs) ∧ s.inds = s.inds := ⟨rfl, Iff.rfl, rfl⟩
  cases r with
  | reset d => exact absurd rfl (hr d)
  | list => exact hself
  | create n =>
    have hne : m ≠ n := fun e => hm (by simp [Req.about, e])
    simp only [handle]
    split
    · exact hself
    · exact ⟨look_append_ne hne _ _, Iff.rfl, rfl⟩
  | setMetric n k =>
    have hne : m ≠ n := fun e => hm (by simp [Req.about, e])
    simp only [handle]
    split
    · exact hself
    · split
      · exact hself
      · exact hu _ _ _ hne
  | delete n d =>
    have hne : m ≠ n := fun e => hm (by simp [Req.about, e])
    simp only [handle]
    split
    · exact hself
    · split
      · split
        · exact ⟨look_drop_ne hne _, by rw [mem_rmDir]; simp [hne], rfl⟩
        · refine ⟨look_drop_ne hne _, ?_, rfl⟩
          simp only
          split
          · rw [mem_rmDir]; simp [hne]
          · rfl
      · exact ⟨look_drop_ne hne _, Iff.rfl, rfl⟩
  | insert n items =>
    have hne : m ≠ n := fun e => hm (by simp [Req.about, e])
    simp only [handle]
    split
    · exact hself
    · split <;> exact hu _ _ _ hne
  | query n vs l e t =>
    simp only [handle]
    split
    · exact hself
    · split <;> exact hself
  | upsert n items =>
    have hne : m ≠ n := fun e => hm (by simp [Req.about, e])
    simp only [handle]
    split
    · exact hself
    · split <;> exact hu _ _ _ hne
  | deleteById n ids =>
    have hne : m ≠ n := fun e => hm (by simp [Req.about, e])
    simp only [handle]
    split
    · exact hself
    · split <;> exact hu _ _ _ hne
  | deleteByFilter n f =>
    have hne : m ≠ n := fun e => hm (by simp [Req.about, e])
    simp only [handle]
    split
    · exact hself
    · split
      · exact hself
      · exact hu _ _ _ hne
      · exact hu _ _ _ hne
  | save n =>
    have hne : m ≠ n := fun e => hm (by simp [Req.about, e])
    simp only [handle]
    split
    · exact hself
    · split
      · exact hself
      · exact hu _ _ _ hne

/-- The names of the collections after a request. -/
theorem names_after (env : Env) (hc : env.Calm) (s : Svc N) (hs : s.names.Nodup) (r : Req V M J) :
    (handle B env s r).2.names = noted s.names r (statusOf (handle B env s r)) := by
  have hu : ∀ (n : Name) (c : Coll N) (w : Bool), (update s n c w).names = s.names := fun n c w => put_names _ _ _
  have hn : ∀ (r : Req V M J) (st : Option Nat), (∀ n, r ≠ .create n) → (∀ n d, r ≠ .delete n d) → (∀ d, r ≠ .reset d) →
      noted s.names r st = s.names := by
    intro r st h1 h2 h3
    unfold noted
    split
    · cases r <;> simp_all
    · rfl
  cases r with
  | create n =>
    simp only [handle]
    split
    · next h =>
      have : isIn alreadyExists (createHead ++ n ++ quoteSp ++ alreadyExists) = true := isIn_end _ _
      simp [-List.append_assoc, statusOf, createError, this, noted]
    · simp [statusOf, ok, noted, Svc.names]
  | list => rfl
  | reset d =>
    simp only [handle]
    split
    · split
      · simp [statusOf, ok, noted, Svc.names]
      · next e he =>
        have := rmAll_calm hc (s.cols.map Prod.fst ++ s.inds) s.dirs
        rw [he] at this; cases this
    · simp [statusOf, ok, noted, Svc.names]
  | delete n d =>
    simp only [handle]
    split
    · have : isIn doesNotExist (deleteHead ++ n ++ quoteSp ++ doesNotExist) = true := isIn_end _ _
      simp [-List.append_assoc, statusOf, nameError, this, noted]
    · split
      · rw [hc n]
        simpa [statusOf, ok, noted, Svc.names] using drop_names n s.cols hs
      · simpa [statusOf, ok, noted, Svc.names] using drop_names n s.cols hs
  | setMetric n k =>
    rw [hn _ _ (by simp) (by simp) (by simp)]
    simp only [handle]
    split
    · rfl
    · split
      · rfl
      · exact hu _ _ _
  | query n vs l e t =>
    rw [hn _ _ (by simp) (by simp) (by simp)]
    simp only [handle]
    split
    · rfl
    · split <;> rfl
  | insert n items =>
    rw [hn _ _ (by simp) (by simp) (by simp)]
    simp only [handle]
    split
    · rfl
    · split <;> exact hu _ _ _
  | upsert n items =>
    rw [hn _ _ (by simp) (by simp) (by simp)]
    simp only [handle]
    split
    · rfl
    · split <;> exact hu _ _ _
  | deleteById n ids =>
    rw [hn _ _ (by simp) (by simp) (by simp)]
    simp only [handle]
    split
    · rfl
    · split <;> exact hu _ _ _
  | deleteByFilter n f =>
    rw [hn _ _ (by simp) (by simp) (by simp)]
    simp only [handle]
    split
    · rfl
    · split
      · rfl
      · exact hu _ _ _
      · exact hu _ _ _
  | save n =>
    rw [hn _ _ (by simp) (by simp) (by simp)]
    simp only [handle]
    split
    · rfl
    · split
      · rfl
      · exact hu _ _ _

/-- No request and no restart gives two collections, or two directories, the same name. -/
theorem C99_proper (s : Svc N) (hs : Proper s) (e : Ev N V M J) : Proper (evStep B s e) := by
  have hu : ∀ (n : Name) (c : Coll N) (w : Bool), Proper (update s n c w) := by
    intro n c w
    refine ⟨?_, ?_⟩
    · simpa only [Svc.names, update, put_names] using hs.1
    · simp only [update]; split
      · exact addDir_nodup hs.2
      · exact hs.2
  have hd : ∀ n, ((drop n s.cols).map Prod.fst).Nodup := by
    intro n; rw [drop_names n s.cols hs.1]; exact hs.1.filter _
  cases e with
  | restart load inds =>
    refine ⟨?_, hs.2⟩
    simpa [evStep, restart, Svc.names, Function.comp_def] using hs.2
  | req env r =>
    simp only [evStep]
    cases r with
    | create n =>
      simp only [handle]
      split
      · exact hs
      · next h =>
        refine ⟨?_, hs.2⟩
        simp only [Svc.names, List.map_append, List.map_cons, List.map_nil]
        exact List.nodup_append.mpr ⟨hs.1, by simp, by
          intro a ha b hb e
          rw [List.mem_singleton.mp hb] at e
          exact h (Or.inl (e ▸ ha))⟩
    | list => exact hs
    | reset d =>
      simp only [handle]
      split
      · split
        · next h => exact ⟨List.nodup_nil, by have := rmAll_nodup (env := env) (ns := s.cols.map Prod.fst ++ s.inds) hs.2; rw [h] at this; exact this⟩
        · next h =>
          refine ⟨?_, by have := rmAll_nodup (env := env) (ns := s.cols.map Prod.fst ++ s.inds) hs.2; rw [h] at this; exact this⟩
          simpa [Svc.names, Function.comp_def] using hs.1
      · exact ⟨List.nodup_nil, hs.2⟩
    | delete n d =>
      simp only [handle]
      split
      · exact hs
      · split
        · split
          · exact ⟨hd n, rmDir_nodup hs.2⟩
          · refine ⟨hd n, ?_⟩
            simp only
            split
            · exact rmDir_nodup hs.2
            · exact hs.2
        · exact ⟨hd n, hs.2⟩
    | setMetric n k =>
      simp only [handle]
      split
      · exact hs
      · split
        · exact hs
        · exact hu _ _ _
    | query n vs l e t =>
      simp only [handle]
      split
      · exact hs
      · split <;> exact hs
    | insert n items =>
      simp only [handle]
      split
      · exact hs
      · split <;> exact hu _ _ _
    | upsert n items =>
      simp only [handle]
      split
      · exact hs
      · split <;> exact hu _ _ _
    | deleteById n ids =>
      simp only [handle]
      split
      · exact hs
      · split <;> exact hu _ _ _
    | deleteByFilter n f =>
      simp only [handle]
      split
      · exact hs
      · split
        · exact hs
        · exact hu _ _ _
        · exact hu _ _ _
    | save n =>
      simp only [handle]
      split
      · exact hs
      · split
        · exact hs
        · exact hu _ _ _

/-- As long as directories can be removed, `list` answers with the names of a book in which every creation, deletion
and reset answered 200 is noted, in that order and without repetition. -/
theorem C99_list (rs : List (Env × Req V M J)) (hc : ∀ p ∈ rs, p.1.Calm) (s : Svc N) (hs : Proper s) :
    (after B s rs).names = book B s s.names rs ∧ (after B s rs).names.Nodup := by
  induction rs generalizing s with
  | nil => exact ⟨rfl, hs.1⟩
  | cons p t ih =>
    obtain ⟨env, r⟩ := p
    have h1 := names_after B env (hc (env, r) List.mem_cons_self) s hs.1 r
    have h2 := ih (fun q hq => hc q (List.mem_cons_of_mem _ hq)) (handle B env s r).2 (C99_proper B s hs (.req env r))
    simp only [after, List.foldl_cons, book] at h2 ⊢
    rw [← h1]
    exact h2

/-- A request that only looks, or that creates, sets a metric or saves, changes nothing when it is not answered 200;
`query`, `list` and `save` never change a collection. -/
theorem C99_failed_keeps (env : Env) (s : Svc N) :
    (∀ n, statusOf (handle B env s (.create n)) ≠ some 200 → (handle B env s (.create n)).2 = s) ∧
    (∀ n m, statusOf (handle B env s (.setMetric n m)) ≠ some 200 → (handle B env s (.setMetric n m)).2 = s) ∧
    (∀ n, statusOf (handle B env s (.save n)) ≠ some 200 → (handle B env s (.save n)).2 = s) ∧
    (∀ n, (handle B env s (.save n)).2.cols = s.cols) ∧
    (∀ n vs l e t, (handle B env s (.query n vs l e t)).2 = s) := by
  refine ⟨fun n h => ?_, fun n m h => ?_, fun n h => ?_, fun n => ?_, fun n vs l e t => ?_⟩
  · simp only [handle] at h ⊢
    split
    · rfl
    · next h' => rw [if_neg h'] at h; exact absurd rfl h
  · simp only [handle] at h ⊢
    split
    · rfl
    · next c hl =>
      rw [hl] at h
      split
      · rfl
      · next h' => simp only [h'] at h; exact absurd rfl h
  · simp only [handle] at h ⊢
    split
    · rfl
    · next c hl =>
      rw [hl] at h
      split
      · rfl
      · next h' => simp only [h'] at h; exact absurd rfl h
  · simp only [handle]
    split
    · rfl
    · next c hl =>
      split
      · rfl
      · exact put_same hl
  · simp only [handle]
    split
    · rfl
    · split <;> rfl

/-- Setting the metric of a collection without data is answered 200 and done. -/
theorem C99_set_metric (env : Env) (s : Svc N) (n m : Name) (k : Option Name) (h : look n s.cols = some ⟨k, none⟩) :
    statusOf (handle B env s (.setMetric n m)) = some 200 ∧
    look n (handle B env s (.setMetric n m)).2.cols = some ⟨some m, none⟩ := by
  simp only [handle, h]
  exact ⟨rfl, look_put h⟩

/-- A collection deleted with answer 200 is not listed any more, nor – if it was to be deleted on disk – present
after a restart.  After a reset answered 200 nothing is listed, and with `delete_on_disk` no collection that was
listed is present after a restart. -/
theorem C99_delete (env : Env) (s : Svc N) (hs : Proper s) :
    (∀ n d, statusOf (handle B env s (.delete n d)) = some 200 →
      n ∈ s.names ∧ n ∉ (handle B env s (.delete n d)).2.names ∧
      (d = some true → ∀ load inds, n ∉ (restart load inds (handle B env s (.delete n d)).2).names)) ∧
    (∀ d, statusOf (handle B env s (.reset d)) = some 200 →
      (handle B env s (.reset d)).2.names = [] ∧
      (d = some true → ∀ n ∈ s.names, ∀ load inds, n ∉ (restart load inds (handle B env s (.reset d)).2).names)) := by
  have hdr : ∀ n, n ∉ (drop n s.cols).map Prod.fst := by
    intro n; rw [drop_names n s.cols hs.1]; simp
  have hre : ∀ (t : Svc N) (load : Name → Coll N) (inds : List Name), (restart load inds t).names = t.dirs := by
    intro t load inds; simp [restart, Svc.names, Function.comp_def]
  constructor
  · intro n d h
    simp only [handle] at h ⊢
    split
    · next hl =>
      rw [hl] at h
      have : isIn doesNotExist (deleteHead ++ n ++ quoteSp ++ doesNotExist) = true := isIn_end _ _
      simp [-List.append_assoc, statusOf, nameError, this] at h
    · next c hl =>
      rw [hl] at h
      have hm : n ∈ s.names := by
        by_contra hm; rw [look_none.mpr hm] at hl; cases hl
      refine ⟨hm, ?_⟩
      split
      · next hd =>
        simp only [hd, if_true] at h
        split
        · exact ⟨hdr n, fun _ load inds => by rw [hre]; exact fun h => (mem_rmDir.mp h).2 rfl⟩
        · next e he =>
          rw [he] at h
          simp only [statusOf, nameError, Option.map_some, Option.some.injEq] at h
          split at h <;> cases h
      · next hd => exact ⟨hdr n, fun e => absurd (by rw [e]; rfl) hd⟩
  · intro d h
    simp only [handle] at h ⊢
    split
    · next hd =>
      simp only [hd, if_true] at h
      split
      · next dirs he =>
        refine ⟨rfl, fun _ n hn load inds => ?_⟩
        rw [hre]
        have := rmAll_none (env := env) (ns := s.cols.map Prod.fst ++ s.inds) (dirs := s.dirs) (by rw [he]) (m := n)
          (List.mem_append_left _ hn)
        rw [he] at this
        exact this
      · next e he =>
        rw [he] at h
        simp [statusOf, crash] at h
    · next hd => exact ⟨rfl, fun e => absurd (by rw [e]; rfl) hd⟩

/-- Different numbers are different ids. -/
theorem C99_ids (i j : Int) : showInt i = showInt j ↔ i = j := ⟨showInt_inj, fun h => h ▸ rfl⟩

/-- Inserting into a collection that has an index: answered 200 exactly if every item was taken, in the order given;
answered 400 if some item was refused – then the items before it have been taken and those after it have not been
tried. -/
theorem C99_insert (env : Env) (s : Svc N) (n : Name) (k : Option Name) (x : N) (h : look n s.cols = some ⟨k, some x⟩)
    (items : List (Item V M)) :
    (∃ y, Took B.insert x (items.map fun i => ⟨showInt i.id, i.doc, i.vec, i.info⟩) y ∧
      (handle B env s (.insert n items)).1 = some ⟨200, .said (.inserted items.length n)⟩ ∧
      look n (handle B env s (.insert n items)).2.cols = some ⟨k, some y⟩) ∨
    (∃ pre i post y z e, items = pre ++ i :: post ∧
      Took B.insert x (pre.map fun i => ⟨showInt i.id, i.doc, i.vec, i.info⟩) y ∧
      B.insert y ⟨showInt i.id, i.doc, i.vec, i.info⟩ = (z, some e) ∧
      (handle B env s (.insert n items)).1 = some ⟨400, .error e.msg⟩ ∧
      look n (handle B env s (.insert n items)).2.cols = some ⟨k, some z⟩) := by
  cases items with
  | nil =>
    refine Or.inl ⟨x, .nil x, ?_, ?_⟩
    · simp [handle, h, collInsert, ok]
    · simp [handle, h, collInsert, update, look_put h]
  | cons i0 t =>
    rcases each_split B.insert x ((i0 :: t).map Item.native) with ⟨y, h1, h2⟩ | ⟨pre, a, post, y, z, e, h1, h2, h3, h4⟩
    · refine Or.inl ⟨y, h1, ?_, ?_⟩
      · simp [handle, h, collInsert, -List.map_cons, h2, ok]
      · simp [handle, h, collInsert, -List.map_cons, h2, update, look_put h]
    · obtain ⟨p', q', e1, e2, e3⟩ := List.map_eq_append_iff.mp h1
      obtain ⟨i, post', e4, e5, e6⟩ := List.map_eq_cons_iff.mp e3
      subst e4
      refine Or.inr ⟨p', i, post', y, z, e, e1, by rw [← e2] at h2; exact h2, by rw [← e5] at h3; exact h3, ?_, ?_⟩
      · simp [handle, h, collInsert, -List.map_cons, h4, bad]
      · simp [handle, h, collInsert, -List.map_cons, h4, update, look_put h]

/-- The same for upserting. -/
theorem C99_upsert (env : Env) (s : Svc N) (n : Name) (k : Option Name) (x : N) (h : look n s.cols = some ⟨k, some x⟩)
    (items : List (Item V M)) :
    (∃ y, Took B.upsert x (items.map fun i => ⟨showInt i.id, i.doc, i.vec, i.info⟩) y ∧
      (handle B env s (.upsert n items)).1 = some ⟨200, .said (.upserted items.length n)⟩ ∧
      look n (handle B env s (.upsert n items)).2.cols = some ⟨k, some y⟩) ∨
    (∃ pre i post y z e, items = pre ++ i :: post ∧
      Took B.upsert x (pre.map fun i => ⟨showInt i.id, i.doc, i.vec, i.info⟩) y ∧
      B.upsert y ⟨showInt i.id, i.doc, i.vec, i.info⟩ = (z, some e) ∧
      (handle B env s (.upsert n items)).1 = some ⟨400, .error e.msg⟩ ∧
      look n (handle B env s (.upsert n items)).2.cols = some ⟨k, some z⟩) := by
  cases items with
  | nil =>
    refine Or.inl ⟨x, .nil x, ?_, ?_⟩
    · simp [handle, h, collUpsert, ok]
    · simp [handle, h, collUpsert, update, look_put h]
  | cons i0 t =>
    rcases each_split B.upsert x ((i0 :: t).map Item.native) with ⟨y, h1, h2⟩ | ⟨pre, a, post, y, z, e, h1, h2, h3, h4⟩
    · refine Or.inl ⟨y, h1, ?_, ?_⟩
      · simp [handle, h, collUpsert, -List.map_cons, h2, ok]
      · simp [handle, h, collUpsert, -List.map_cons, h2, update, look_put h]
    · obtain ⟨p', q', e1, e2, e3⟩ := List.map_eq_append_iff.mp h1
      obtain ⟨i, post', e4, e5, e6⟩ := List.map_eq_cons_iff.mp e3
      subst e4
      refine Or.inr ⟨p', i, post', y, z, e, e1, by rw [← e2] at h2; exact h2, by rw [← e5] at h3; exact h3, ?_, ?_⟩
      · simp [handle, h, collUpsert, -List.map_cons, h4, bad]
      · simp [handle, h, collUpsert, -List.map_cons, h4, update, look_put h]

/-- Removing ids: answered 200 if every removal worked or found no such id (`RuntimeError`); each is attempted, in
order.  Another failure is answered 400. -/
theorem C99_delete_by_id (env : Env) (s : Svc N) (n : Name) (k : Option Name) (x : N) (h : look n s.cols = some ⟨k, some x⟩)
    (ids : List Int) :
    (∃ y, Attempts B x (ids.map showInt) y ∧
      (handle B env s (.deleteById n ids)).1 = some ⟨200, .said (.removed n)⟩ ∧
      look n (handle B env s (.deleteById n ids)).2.cols = some ⟨k, some y⟩) ∨
    (∃ pre i post y z e, ids = pre ++ i :: post ∧ Attempts B x (pre.map showInt) y ∧ e.runtime = false ∧
      B.remove y (showInt i) = (z, some e) ∧
      (handle B env s (.deleteById n ids)).1 = some ⟨400, .error e.msg⟩ ∧
      look n (handle B env s (.deleteById n ids)).2.cols = some ⟨k, some z⟩) := by
  cases ids with
  | nil =>
    refine Or.inl ⟨x, .nil x, ?_, ?_⟩
    · simp [handle, h, collDelete, ok]
    · simp [handle, h, collDelete, update, look_put h]
  | cons i0 t =>
    rcases each_split (tryRemove B) x ((i0 :: t).map showInt) with ⟨y, h1, h2⟩ | ⟨pre, a, post, y, z, e, h1, h2, h3, h4⟩
    · refine Or.inl ⟨y, took_attempts h1, ?_, ?_⟩
      · simp [handle, h, collDelete, -List.map_cons, h2, ok]
      · simp [handle, h, collDelete, -List.map_cons, h2, update, look_put h]
    · obtain ⟨p', q', e1, e2, e3⟩ := List.map_eq_append_iff.mp h1
      obtain ⟨i, post', e4, e5, e6⟩ := List.map_eq_cons_iff.mp e3
      subst e4
      have h3' : B.remove y a = (z, some e) ∧ e.runtime = false := by
        unfold tryRemove at h3
        rcases hr : B.remove y a with ⟨u, r⟩
        rw [hr] at h3
        cases r with
        | none => simp at h3
        | some e' =>
          cases hb : e'.runtime
          · simp [hb] at h3; obtain ⟨rfl, rfl⟩ := h3; exact ⟨rfl, hb⟩
          · simp [hb] at h3
      refine Or.inr ⟨p', i, post', y, z, e, e1, took_attempts (by rw [← e2] at h2; exact h2), h3'.2,
        by rw [← e5] at h3'; exact h3'.1, ?_, ?_⟩
      · simp [handle, h, collDelete, -List.map_cons, h4, bad]
      · simp [handle, h, collDelete, -List.map_cons, h4, update, look_put h]

theorem filterLoop_rounds {f : List (Name × J)} {k : Nat} {c c' : Coll N} (h : filterLoop B f k c = some (c', none)) :
    ∃ x y, c.index = some x ∧ Rounds B f x y ∧ c' = ⟨c.metric, some y⟩ := by
  induction k generalizing c with
  | zero => cases h
  | succ k ih =>
    simp only [filterLoop] at h
    split at h
    · simp at h
    · next x hx =>
      split at h
      · simp at h
      · next ids hf =>
        split at h
        · simp at h
        · next d hd =>
          have hat : ∃ y, Attempts B x ids y ∧ d = ⟨c.metric, some y⟩ := by
            unfold collDelete at hd
            split at hd
            · next hi =>
              cases hd
              rw [List.isEmpty_iff.mp hi]
              exact ⟨x, .nil x, by cases c; simp_all⟩
            · rw [hx] at hd
              simp only at hd
              rcases each_split (tryRemove B) x ids with ⟨y, h1, h2⟩ | ⟨pre, a, post, y, z, e, h1, h2, h3, h4⟩
              · rw [h2] at hd; cases hd; exact ⟨y, took_attempts h1, rfl⟩
              · rw [h4] at hd; cases hd
          obtain ⟨y, hy, rfl⟩ := hat
          split at h
          · next hl =>
            obtain ⟨x', z, h1, h2, h3⟩ := ih h
            cases h1
            exact ⟨x, z, hx, .more hf hl hy h2, h3⟩
          · next hl => cases h; exact ⟨x, y, hx, .last hf hl hy, rfl⟩

/-- Removing by filter, answered 200: there were rounds of finding at most 1000 matching items and removing them, and
the last round found fewer. -/
theorem C99_delete_by_filter (env : Env) (s : Svc N) (n : Name) (f : List (Name × J))
    (h : statusOf (handle B env s (.deleteByFilter n f)) = some 200) :
    ∃ k x y, look n s.cols = some ⟨k, some x⟩ ∧ Rounds B f x y ∧
      look n (handle B env s (.deleteByFilter n f)).2.cols = some ⟨k, some y⟩ := by
  simp only [handle] at h ⊢
  split at h
  · simp [statusOf, missing] at h
  · next c hl =>
    rw [hl]
    split at h
    · simp [statusOf] at h
    · next c' hc =>
      obtain ⟨x, y, h1, h2, h3⟩ := filterLoop_rounds B hc
      refine ⟨c.metric, x, y, by rw [← h1], h2, ?_⟩
      simp only [update]
      rw [look_put hl, h3]
    · simp [statusOf, bad] at h

/-- A query is answered 200 with the rows found exactly if the collection has an index, there is at least one
thread, `limit` is at most `ef_search` (1, 1 and 10 if not given), and the native search succeeds with a result that
has a JSON form. -/
theorem C99_query (env : Env) (s : Svc N) (n : Name) (vs : List (List V)) (l e t : Option Int) (r : R) :
    (handle B env s (.query n vs l e t)).1 = some ⟨200, .rows r⟩ ↔
      ∃ k x, look n s.cols = some ⟨k, some x⟩ ∧ 0 < t.getD 1 ∧ l.getD 1 ≤ e.getD 10 ∧
        B.query x vs (l.getD 1) (e.getD 10) (t.getD 1) = .ok r ∧ B.json r = true := by
  simp only [handle]
  cases hl : look n s.cols with
  | none => simp [missing]
  | some c =>
    obtain ⟨k, ix⟩ := c
    cases ix with
    | none => simp [collQuery, bad]
    | some x =>
      simp only [collQuery]
      by_cases h1 : t.getD 1 ≤ 0
      · simp only [h1, if_true]
        simp [bad]; omega
      · by_cases h2 : e.getD 10 < l.getD 1
        · simp only [h1, h2, if_false, if_true]
          simp [bad]; omega
        · simp only [h1, h2, if_false]
          rcases hq : B.query x vs (l.getD 1) (e.getD 10) (t.getD 1) with er | y
          · simp [bad, hq]
          · cases hj : B.json y
            · simp [hj, crash, hq]; rintro _ _ rfl; simp [hj]
            · simp [hj, hq]
              constructor
              · rintro rfl; exact ⟨by omega, by omega, rfl, hj⟩
              · rintro ⟨_, _, h, _⟩; exact h

/-- A collection without an index takes no items over REST: inserting or upserting any is answered 400 and changes
nothing, whatever the items and the native index. -/
theorem C99_first_insert (env : Env) (s : Svc N) (n : Name) (k : Option Name) (h : look n s.cols = some ⟨k, none⟩)
    (items : List (Item V M)) (hi : items ≠ []) :
    handle B env s (.insert n items) = (some ⟨400, .error badDtype⟩, s) ∧
    handle B env s (.upsert n items) = (some ⟨400, .error badDtype⟩, s) := by
  have he : items.isEmpty = false := by cases items <;> simp_all
  have hu : update s n ⟨k, none⟩ false = s := by simp [update, put_same h]
  have hd : okDtype npList = false := by decide +kernel
  constructor
  · simp [handle, h, collInsert, he, hd, bad, hu]
  · simp [handle, h, collUpsert, collInsert, he, hd, bad, hu]

theorem collInsert_none {env : Env} {n : Name} {c : Coll N} (hc : c.index = none) (items : List (Item V M)) :
    (collInsert B env n c items).1 = c ∧ (collInsert B env n c items).2.1 = false := by
  have hd : okDtype npList = false := by decide +kernel
  simp only [collInsert, hc, hd, if_true]
  split <;> exact ⟨rfl, rfl⟩

theorem collInsert_some {env : Env} {n : Name} {c : Coll N} (hc : c.index ≠ none) (items : List (Item V M)) :
    (collInsert B env n c items).2.1 = false := by
  unfold collInsert
  split
  · rfl
  · split
    · next h => exact absurd h hc
    · rfl

theorem collUpsert_none {env : Env} {n : Name} {c : Coll N} (hc : c.index = none) (items : List (Item V M)) :
    (collUpsert B env n c items).1 = c ∧ (collUpsert B env n c items).2.1 = false := by
  unfold collUpsert
  split
  · exact ⟨rfl, rfl⟩
  · simp [hc, collInsert_none B hc]

theorem collUpsert_some {env : Env} {n : Name} {c : Coll N} (hc : c.index ≠ none) (items : List (Item V M)) :
    (collUpsert B env n c items).2.1 = false := by
  unfold collUpsert
  split
  · rfl
  · split
    · next h => exact absurd h hc
    · rfl

theorem collDelete_none {c : Coll N} (hc : c.index = none) (ids : List Name) : (collDelete B c ids).1 = c := by
  unfold collDelete
  split
  · rfl
  · simp [hc]

theorem filterLoop_none {f : List (Name × J)} {c : Coll N} (hc : c.index = none) {k : Nat} {a : Coll N × Option Exn}
    (h : filterLoop B f k c = some a) : a.1 = c := by
  cases k with
  | zero => cases h
  | succ k => simp only [filterLoop, hc, Option.some.injEq] at h; rw [← h]

theorem filled_step (s : Svc N) (e : Ev N V M J) (n : Name) (h : Filled (evStep B s e) n) : Filled s n := by
  -- one collection changed, and not from empty to filled
  have hu : ∀ (k : Name) (c c' : Coll N) (w : Bool), look k s.cols = some c → (c.index = none → c'.index = none) →
      (w = true → c.index ≠ none) → Filled (update s k c' w) n → Filled s n := by
    intro k c c' w hl h1 h2 hf
    rcases hf with ⟨d, hd, hi⟩ | hd
    · rcases mem_put hd with hm | ⟨rfl, rfl⟩
      · exact Or.inl ⟨d, hm, hi⟩
      · exact Or.inl ⟨c, look_mem hl, fun e => hi (h1 e)⟩
    · simp only [update] at hd
      split at hd
      · next hw =>
        rcases mem_addDir.mp hd with hm | rfl
        · exact Or.inr hm
        · exact Or.inl ⟨c, look_mem hl, h2 hw⟩
      · exact Or.inr hd
  have hd : ∀ (k : Name) (dirs : List Name), (∀ m ∈ dirs, m ∈ s.dirs) → Filled (⟨drop k s.cols, s.inds, dirs⟩ : Svc N) n →
      Filled s n := by
    rintro k dirs hs (⟨d, hd, hi⟩ | hd)
    · exact Or.inl ⟨d, mem_drop hd, hi⟩
    · exact Or.inr (hs _ hd)
  cases e with
  | restart load inds =>
    rcases h with ⟨c, hc, _⟩ | h
    · simp only [evStep, restart, Has, List.mem_map] at hc
      obtain ⟨m, hm, he⟩ := hc
      cases he
      exact Or.inr hm
    · exact Or.inr h
  | req env r =>
    simp only [evStep] at h
    cases r with
    | create k =>
      simp only [handle] at h
      split at h
      · exact h
      · rcases h with ⟨c, hc, hi⟩ | h
        · rcases List.mem_append.mp hc with hc | hc
          · exact Or.inl ⟨c, hc, hi⟩
          · simp only [List.mem_singleton, Prod.mk.injEq] at hc
            exact absurd (by rw [hc.2]) hi
        · exact Or.inr h
    | list => exact h
    | setMetric k m =>
      simp only [handle] at h
      split at h
      · exact h
      · next c hl =>
        split at h
        · exact h
        · exact hu _ _ _ _ hl (fun _ => rfl) (fun e => by cases e) h
    | delete k d =>
      simp only [handle] at h
      split at h
      · exact h
      · split at h
        · split at h
          · exact hd _ _ (fun m hm => (mem_rmDir.mp hm).1) h
          · refine hd _ _ (fun m hm => ?_) h
            split at hm
            · exact (mem_rmDir.mp hm).1
            · exact hm
        · exact hd _ _ (fun m hm => hm) h
    | reset d =>
      simp only [handle] at h
      split at h
      · split at h
        · next he =>
          rcases h with ⟨c, hc, _⟩ | h
          · cases hc
          · exact Or.inr (rmAll_mem (by rw [he]; exact h))
        · next he =>
          rcases h with ⟨c, hc, hi⟩ | h
          · simp only [Has, List.mem_map, Prod.mk.injEq] at hc
            obtain ⟨p, _, _, rfl⟩ := hc
            exact absurd rfl hi
          · exact Or.inr (rmAll_mem (by rw [he]; exact h))
      · rcases h with ⟨c, hc, _⟩ | h
        · cases hc
        · exact Or.inr h
    | query k vs l e t =>
      simp only [handle] at h
      split at h
      · exact h
      · split at h <;> exact h
    | insert k items =>
      simp only [handle] at h
      split at h
      · exact h
      · next c hl =>
        have key : ∀ c' w r, collInsert B env k c items = (c', w, r) → Filled (update s k c' w) n → Filled s n := by
          intro c' w r he
          refine hu k c c' w hl (fun hc => ?_) (fun hw hc => ?_)
          · have := (collInsert_none B (env := env) (n := k) hc items).1; rw [he] at this; simp only at this; rw [this]; exact hc
          · have := (collInsert_none B (env := env) (n := k) hc items).2; rw [he] at this; simp [hw] at this
        split at h
        · next he => exact key _ _ _ he h
        · next he => exact key _ _ _ he h
    | upsert k items =>
      simp only [handle] at h
      split at h
      · exact h
      · next c hl =>
        have key : ∀ c' w r, collUpsert B env k c items = (c', w, r) → Filled (update s k c' w) n → Filled s n := by
          intro c' w r he
          refine hu k c c' w hl (fun hc => ?_) (fun hw hc => ?_)
          · have := (collUpsert_none B (env := env) (n := k) hc items).1; rw [he] at this; simp only at this; rw [this]; exact hc
          · have := (collUpsert_none B (env := env) (n := k) hc items).2; rw [he] at this; simp [hw] at this
        split at h
        · next he => exact key _ _ _ he h
        · next he => exact key _ _ _ he h
    | deleteById k ids =>
      simp only [handle] at h
      split at h
      · exact h
      · next c hl =>
        have key : ∀ c' r, collDelete B c (ids.map showInt) = (c', r) → Filled (update s k c' false) n → Filled s n := by
          intro c' r he
          refine hu k c c' false hl (fun hc => ?_) (fun hw => by cases hw)
          have := collDelete_none B hc (ids.map showInt); rw [he] at this; simp only at this; rw [this]; exact hc
        split at h
        · next he => exact key _ _ he h
        · next he => exact key _ _ he h
    | deleteByFilter k f =>
      simp only [handle] at h
      split at h
      · exact h
      · next c hl =>
        have key : ∀ c' r, filterLoop B f env.rounds c = some (c', r) → Filled (update s k c' false) n → Filled s n := by
          intro c' r he
          refine hu k c c' false hl (fun hc => ?_) (fun hw => by cases hw)
          have := filterLoop_none B hc he; simp only at this; rw [this]; exact hc
        split at h
        · exact h
        · next he => exact key _ _ he h
        · next he => exact key _ _ he h
    | save k =>
      simp only [handle] at h
      split at h
      · exact h
      · next c hl =>
        split at h
        · exact h
        · next he =>
          refine hu k c c true hl id (fun _ hc => ?_) h
          unfold collSave at he
          split at he
          · cases he
          · rw [hc] at he; cases he

/-- No request and no restart ever gives data to a collection that had none. -/
theorem C99_only_old (s : Svc N) (evs : List (Ev N V M J)) (n : Name) (h : Filled (run B s evs) n) : Filled s n := by
  induction evs generalizing s with
  | nil => exact h
  | cons e t ih => exact filled_step B s e n (ih (evStep B s e) h)

/-- A service started on an empty data directory never holds anything: after any requests and restarts, every insert or
upsert of at least one item and every query and save is answered 400 or 404, and a restart leaves nothing listed. -/
theorem C99_empty_service (evs : List (Ev N V M J)) (env : Env) (r : Req V M J) (load : Name → Coll N) (inds : List Name) :
    (restart load inds (run B Svc.empty evs)).names = [] ∧
    ((∃ n items, (r = .insert n items ∨ r = .upsert n items) ∧ items ≠ []) ∨ (∃ n vs l e t, r = .query n vs l e t) ∨
        (∃ n, r = .save n) →
      statusOf (handle B env (run B Svc.empty evs) r) = some 400 ∨ statusOf (handle B env (run B Svc.empty evs) r) = some 404) := by
  have hno : ∀ n, ¬ Filled (run B Svc.empty evs) n := by
    intro n h
    rcases C99_only_old B _ _ _ h with ⟨c, hc, _⟩ | h
    · cases hc
    · cases h
  generalize run B Svc.empty evs = s at hno
  have hdirs : s.dirs = [] := List.eq_nil_iff_forall_not_mem.mpr (fun n h => hno n (Or.inr h))
  refine ⟨by simp [restart, Svc.names, hdirs], ?_⟩
  have hcase : ∀ n, look n s.cols = none ∨ ∃ k, look n s.cols = some ⟨k, none⟩ := by
    intro n
    cases hl : look n s.cols with
    | none => exact Or.inl rfl
    | some c =>
      obtain ⟨k, ix⟩ := c
      cases ix with
      | none => exact Or.inr ⟨k, rfl⟩
      | some x => exact absurd (Or.inl ⟨_, look_mem hl, by simp⟩) (hno n)
  rintro (⟨n, items, hr, hi⟩ | ⟨n, vs, l, e, t, rfl⟩ | ⟨n, rfl⟩)
  · rcases hcase n with h | ⟨k, h⟩
    · exact Or.inr (C99_missing B env s r n (by rcases hr with rfl | rfl <;> rfl) (look_none.mp h)).1
    · have := C99_first_insert B env s n k h items hi
      rcases hr with rfl | rfl
      · left; rw [this.1]; rfl
      · left; rw [this.2]; rfl
  · rcases hcase n with h | ⟨k, h⟩
    · exact Or.inr (C99_missing B env s _ n rfl (look_none.mp h)).1
    · left; simp [handle, h, collQuery, statusOf, bad]
  · rcases hcase n with h | ⟨k, h⟩
    · exact Or.inr (C99_missing B env s _ n rfl (look_none.mp h)).1
    · simp only [handle, h, collSave]
      cases env.mkdir n with
      | none => simp only [statusOf, nameError, Option.map_some, Option.some.injEq]; cases isIn doesNotExist noSave <;> simp
      | some e => simp only [statusOf, nameError, Option.map_some, Option.some.injEq]; cases isIn doesNotExist e.msg <;> simp

theorem dirs_keep (s : Svc N) (e : Ev N V M J) (n : Name) (he : ¬ e.Erases n) (h : n ∈ s.dirs) : n ∈ (evStep B s e).dirs := by
  have hu : ∀ (k : Name) (c : Coll N) (w : Bool), n ∈ (update s k c w).dirs := by
    intro k c w
    simp only [update]
    split
    · exact mem_addDir.mpr (Or.inl h)
    · exact h
  cases e with
  | restart load inds => exact h
  | req env r =>
    simp only [evStep]
    cases r with
    | create k => simp only [handle]; split <;> exact h
    | list => exact h
    | setMetric k m =>
      simp only [handle]
      split
      · exact h
      · split
        · exact h
        · exact hu _ _ _
    | delete k d =>
      simp only [handle]
      split
      · exact h
      · split
        · next hd =>
          have hne : n ≠ k := by
            rintro rfl
            exact he ⟨rfl, by cases d with | none => cases hd | some b => simp at hd; rw [hd]⟩
          split
          · exact mem_rmDir.mpr ⟨h, hne⟩
          · simp only
            split
            · exact mem_rmDir.mpr ⟨h, hne⟩
            · exact h
        · exact h
    | reset d =>
      simp only [handle]
      split
      · next hd => exact absurd (by cases d with | none => cases hd | some b => simp at hd; rw [hd]; rfl) he
      · exact h
    | query k vs l e t =>
      simp only [handle]
      split
      · exact h
      · split <;> exact h
    | insert k items =>
      simp only [handle]
      split
      · exact h
      · split <;> exact hu _ _ _
    | upsert k items =>
      simp only [handle]
      split
      · exact h
      · split <;> exact hu _ _ _
    | deleteById k ids =>
      simp only [handle]
      split
      · exact h
      · split <;> exact hu _ _ _
    | deleteByFilter k f =>
      simp only [handle]
      split
      · exact h
      · split
        · exact h
        · exact hu _ _ _
        · exact hu _ _ _
    | save k =>
      simp only [handle]
      split
      · exact h
      · split
        · exact h
        · exact hu _ _ _

/-- A collection saved with answer 200 is listed after every later restart, unless it was deleted on disk, or the
service reset on disk, in between. -/
theorem C99_saved (env : Env) (s : Svc N) (n : Name) (h : statusOf (handle B env s (.save n)) = some 200)
    (evs : List (Ev N V M J)) (he : ∀ e ∈ evs, ¬ e.Erases n) (load : Name → Coll N) (inds : List Name) :
    n ∈ (restart load inds (run B (handle B env s (.save n)).2 evs)).names := by
  have h0 : n ∈ (handle B env s (.save n)).2.dirs := by
    simp only [handle] at h ⊢
    split
    · next hl =>
      rw [hl] at h
      have : isIn doesNotExist (deleteHead ++ n ++ quoteSp ++ doesNotExist) = true := isIn_end _ _
      simp [-List.append_assoc, statusOf, nameError, this] at h
    · next c hl =>
      rw [hl] at h
      split
      · next e hc =>
        simp only [hc, statusOf, nameError, Option.map_some, Option.some.injEq] at h
        split at h <;> cases h
      · simp only [update, if_true]; exact mem_addDir.mpr (Or.inr rfl)
  suffices ∀ (t : Svc N), n ∈ t.dirs → n ∈ (run B t evs).dirs by
    simpa [restart, Svc.names, Function.comp_def] using this _ h0
  clear h h0
  induction evs with
  | nil => exact fun t h => h
  | cons e r ih =>
    intro t h
    exact ih (fun e' h' => he e' (List.mem_cons_of_mem _ h')) _ (dirs_keep B t e n (he e List.mem_cons_self) h)

end

end Alaya.Rest
