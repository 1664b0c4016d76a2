import Verif.Props.C99

/-!
# C99: What the REST service does not do
-/

namespace Alaya.Rest

open Alaya.PyParams (Name okMetric)

/-- A native index that keeps the ids: it takes every new id, refuses a known one, finds everything. -/
def demo : Backend (List Name) Unit Unit Unit Nat where
  fit _ _ items := .ok (items.map NItem.id)
  insert x i := if i.id ∈ x then (x, some ⟨true, ['d', 'u', 'p']⟩) else (x ++ [i.id], none)
  upsert x i := (if i.id ∈ x then x else x ++ [i.id], none)
  remove x id := if id ∈ x then (x.erase id, none) else (x, some ⟨true, ['n', 'o']⟩)
  find x _ k := .ok (x.take k)
  query x _ _ _ _ := .ok x.length
  save _ := none
  json r := decide (r < 100)

/-- A file system where everything works. -/
def fine : Env := ⟨fun _ => none, fun _ => none, fun _ => none, 5⟩

def nA : Name := ['a']
def nB : Name := ['b']

def it (i : Int) : Item Unit Unit := ⟨i, [], [()], ()⟩

/-- A service that was started with a collection `a` holding item 7. -/
def loaded : Svc (List Name) := ⟨[(nA, ⟨some ['l', '2'], some [['7']]⟩)], [], [nA]⟩

def created : Svc (List Name) := (handle demo fine Svc.empty (.create nA)).2

/-! ## Cases that meet the hypotheses of the theorems -/

/-- An insert of two items, a query for them, a removal, and what is left. -/
example : (handle demo fine loaded (.insert nA [it 8, it 9])).1 = some ⟨200, .said (.inserted 2 nA)⟩ ∧
    look nA (handle demo fine loaded (.insert nA [it 8, it 9])).2.cols
      = some ⟨some ['l', '2'], some [['7'], ['8'], ['9']]⟩ ∧
    (handle demo fine loaded (.query nA [[()]] none none none)).1 = some ⟨200, .rows 1⟩ ∧
    look nA (handle demo fine loaded (.deleteById nA [7, -3])).2.cols = some ⟨some ['l', '2'], some []⟩ ∧
    (handle demo fine loaded (.deleteByFilter nA [])).1 = some ⟨200, .said (.removedCount 0 nA)⟩ ∧
    (handle demo fine loaded (.save nA)).1 = some ⟨200, .said (.saved nA)⟩ := by decide +kernel

example : Proper loaded ∧ fine.Calm ∧ nA ∈ loaded.names ∧ nB ∉ loaded.names :=
  ⟨⟨by decide +kernel, by decide +kernel⟩, fun _ => rfl, by decide +kernel, by decide +kernel⟩

/-- A history and its book. -/
example : (after demo loaded [(fine, .create nB), (fine, .create nA), (fine, .delete nA none)]).names = [nB] ∧
    book demo loaded loaded.names [(fine, .create nB), (fine, .create nA), (fine, .delete nA none)] = [nB] := by
  decide +kernel

example : look nA created.cols = some ⟨none, none⟩ := by decide +kernel

/-- The messages of the file system and the native index need not be silent, but can be. -/
example : Silent ⟨false, noSave⟩ := fun h => absurd ((isIn_iff _ _).mpr h) (by decide +kernel)

/-! ## Refutations -/

/-- Claim: after `create`, items can be inserted (the documented sequence). -/
def C99Insert : Prop := ∀ (B : Backend (List Name) Unit Unit Unit Nat) (items : List (Item Unit Unit)),
  (∀ m d l, ∃ x, B.fit m d l = .ok x) → statusOf (handle B fine created (.insert nA items)) = some 200

/-- Not even with a native index that takes everything. -/
theorem C99_insert_refuted : ¬ C99Insert := by
  intro h
  exact absurd (h demo [it 1] (fun _ _ l => ⟨l.map NItem.id, rfl⟩)) (by decide +kernel)

/-- Claim: only known metrics are set. -/
def C99Metric : Prop := ∀ (B : Backend (List Name) Unit Unit Unit Nat) (s : Svc (List Name)) (n m : Name),
  statusOf (handle B fine s (.setMetric n m)) = some 200 → okMetric m = true

theorem C99_metric_refuted : ¬ C99Metric := by
  intro h
  exact absurd (h demo created nA ['x'] (by decide +kernel)) (by decide +kernel)

/-- Claim: the service answers every request without an internal error if the file system works. -/
def C99NoCrash : Prop := ∀ (B : Backend (List Name) Unit Unit Unit Nat) (s : Svc (List Name)) (r : Req Unit Unit Unit),
  statusOf (handle B fine s r) ≠ some 500

/-- Setting the metric of a collection with data: 500. -/
theorem C99_crash_refuted : ¬ C99NoCrash := by
  intro h
  exact h demo loaded (.setMetric nA ['i', 'p']) (by decide +kernel)

/-- Claim: the number in the answer to `delete_by_filter` is the number of items removed. -/
def C99Count : Prop := ∀ (s : Svc (List Name)) (n : Name) (f : List (Name × Unit)) (k : Nat) (x y : List Name) (m : Option Name),
  (handle demo fine s (.deleteByFilter n f)).1 = some ⟨200, .said (.removedCount k n)⟩ →
  look n s.cols = some ⟨m, some x⟩ → look n (handle demo fine s (.deleteByFilter n f)).2.cols = some ⟨m, some y⟩ →
  k = x.length - y.length

/-- It is the number of conditions in the filter: an empty filter removes everything, "0 items". -/
theorem C99_count_refuted : ¬ C99Count := by
  intro h
  exact absurd (h loaded nA [] 0 [['7']] [] (some ['l', '2']) (by decide +kernel) (by decide +kernel) (by decide +kernel))
    (by decide +kernel)

/-- In general: the number in the answer depends only on the request. -/
theorem C99_count {N V M J R : Type} (B : Backend N V M J R) (env : Env) (s : Svc N) (n : Name) (f : List (Name × J))
    (h : statusOf (handle B env s (.deleteByFilter n f)) = some 200) :
    (handle B env s (.deleteByFilter n f)).1 = some ⟨200, .said (.removedCount f.length n)⟩ := by
  simp only [handle] at h ⊢
  split at h
  · simp [statusOf, missing] at h
  · split at h
    · simp [statusOf] at h
    · rfl
    · simp [statusOf, bad] at h

/-- Claim: a request that is not answered 200 changes nothing. -/
def C99Atomic : Prop := ∀ (env : Env) (s : Svc (List Name)) (r : Req Unit Unit Unit),
  statusOf (handle demo env s r) ≠ some 200 → (handle demo env s r).2.cols = s.cols

/-- Items before the refused one stay inserted. -/
theorem C99_partial_insert_refuted : ¬ C99Atomic := by
  intro h
  have := congrArg (look nA) (h fine loaded (.insert nA [it 8, it 7]) (by decide +kernel))
  exact absurd (congrArg (Option.map Coll.index) this) (by decide +kernel)

/-- A file system where directories cannot be removed; the message names the directory. -/
def stuck : Env := ⟨fun n => some (false, ⟨false, ['d', 'e', 'n', 'i', 'e', 'd', ':', ' '] ++ n⟩), fun _ => none, fun _ => none, 5⟩

/-- Claim: a collection whose deletion failed is still listed. -/
def C99FailedDelete : Prop := ∀ (env : Env) (s : Svc (List Name)) (n : Name) (d : Option Bool),
  n ∈ s.names → statusOf (handle demo env s (.delete n d)) ≠ some 200 → n ∈ (handle demo env s (.delete n d)).2.names

theorem C99_failed_delete_refuted : ¬ C99FailedDelete := by
  intro h
  exact absurd (h stuck loaded nA (some true) (by decide +kernel) (by decide +kernel)) (by decide +kernel)

/-- Claim: after a failed reset the collections that are still listed have their data. -/
def C99FailedReset : Prop := ∀ (env : Env) (s : Svc (List Name)) (d : Option Bool) (n : Name) (m : Option Name) (x : List Name),
  statusOf (handle demo env s (.reset d)) ≠ some 200 → look n s.cols = some ⟨m, some x⟩ →
  n ∈ (handle demo env s (.reset d)).2.names → look n (handle demo env s (.reset d)).2.cols = some ⟨m, some x⟩

/-- They are listed but closed. -/
theorem C99_failed_reset_refuted : ¬ C99FailedReset := by
  intro h
  have := h stuck loaded (some true) nA (some ['l', '2']) [['7']] (by decide +kernel) (by decide +kernel) (by decide +kernel)
  exact absurd (congrArg (Option.map Coll.index) this) (by decide +kernel)

/-- Claim: 404 means that there is no such collection. -/
def C99NotFound : Prop := ∀ (env : Env) (s : Svc (List Name)) (r : Req Unit Unit Unit) (n : Name), r.needs = some n →
  statusOf (handle demo env s r) = some 404 → n ∉ s.names

/-- Not for a collection named "does not exist" whose directory cannot be removed. -/
theorem C99_not_found_refuted : ¬ C99NotFound := by
  intro h
  exact absurd (h stuck ⟨[(doesNotExist, ⟨none, none⟩)], [], []⟩ (.delete doesNotExist (some true)) doesNotExist rfl
    (by decide +kernel)) (by decide +kernel)

/-- Claim: a collection created with answer 200 is there after a restart. -/
def C99CreateLasts : Prop := ∀ (s : Svc (List Name)) (n : Name) (load : Name → Coll (List Name)),
  statusOf (handle demo fine s (.create n)) = some 200 → n ∈ (restart load [] (handle demo fine s (.create n)).2).names

theorem C99_create_lasts_refuted : ¬ C99CreateLasts := by
  intro h
  exact absurd (h Svc.empty nA (fun _ => ⟨none, none⟩) (by decide +kernel)) (by decide +kernel)

/-- Claim: a collection deleted with answer 200 is not there after a restart. -/
def C99DeleteLasts : Prop := ∀ (s : Svc (List Name)) (n : Name) (d : Option Bool) (load : Name → Coll (List Name)),
  statusOf (handle demo fine s (.delete n d)) = some 200 → n ∉ (restart load [] (handle demo fine s (.delete n d)).2).names

/-- It is, unless `delete_on_disk` was given. -/
theorem C99_delete_lasts_refuted : ¬ C99DeleteLasts := by
  intro h
  exact absurd (h loaded nA none (fun _ => ⟨none, none⟩) (by decide +kernel)) (by decide +kernel)

/-- Claim: a query for any number of results up to the number of items works. -/
def C99Limit : Prop := ∀ (s : Svc (List Name)) (n : Name) (vs : List (List Unit)) (l : Nat) (m : Option Name) (x : List Name),
  look n s.cols = some ⟨m, some x⟩ → l ≤ x.length → statusOf (handle demo fine s (.query n vs (some l) none none)) = some 200

/-- More than 10 results need `ef_search`. -/
theorem C99_limit_refuted : ¬ C99Limit := by
  intro h
  exact absurd (h ⟨[(nA, ⟨none, some (List.replicate 11 [])⟩)], [], []⟩ nA [[()]] 11 none (List.replicate 11 [])
    (by decide +kernel) (by decide +kernel)) (by decide +kernel)

/-- A query for more than 10 results without `ef_search` is never answered 200. -/
theorem C99_limit {N V M J R : Type} (B : Backend N V M J R) (env : Env) (s : Svc N) (n : Name) (vs : List (List V)) (l : Int)
    (hl : 10 < l) (t : Option Int) : statusOf (handle B env s (.query n vs (some l) none t)) ≠ some 200 := by
  simp only [handle]
  cases look n s.cols with
  | none => simp [statusOf, missing]
  | some c =>
    simp only [collQuery, Option.getD_some, Option.getD_none]
    cases c.index with
    | none => simp [statusOf, bad]
    | some x =>
      by_cases h1 : t.getD 1 ≤ 0
      · simp [h1, statusOf, bad]
      · simp [h1, hl, statusOf, bad]

/-- Claim: every request is answered in the end. -/
def C99Answers : Prop := ∀ (B : Backend (List Name) Unit Unit Unit Nat) (s : Svc (List Name)) (r : Req Unit Unit Unit),
  ∃ k, (handle B { fine with rounds := k } s r).1 ≠ none

/-- A native index that finds 1000 matching items and raises a `RuntimeError` at every removal, as one whose kind does
not support removal does. -/
def noRemove : Backend (List Name) Unit Unit Unit Nat :=
  { demo with remove := fun x _ => (x, some ⟨true, []⟩), find := fun _ _ k => .ok (List.replicate k []) }

theorem noRemove_each (x : List Name) (ids : List Name) : each (tryRemove noRemove) x ids = (x, none) := by
  induction ids with
  | nil => rfl
  | cons a t ih => simp only [each, tryRemove, noRemove]; exact ih

/-- `delete_by_filter` then never ends, and with it the event loop that serves everybody. -/
theorem C99_answers_refuted : ¬ C99Answers := by
  intro h
  obtain ⟨k, hk⟩ := h noRemove loaded (.deleteByFilter nA [])
  have hloop : ∀ j, filterLoop noRemove ([] : List (Name × Unit)) j ⟨some ['l', '2'], some [['7']]⟩ = none := by
    intro j
    induction j with
    | zero => rfl
    | succ j ih =>
      have hne : (List.replicate 1000 ([] : Name)).isEmpty = false := by simp
      have hf : noRemove.find [['7']] ([] : List (Name × Unit)) 1000 = .ok (List.replicate 1000 []) := rfl
      simp only [filterLoop, hf, collDelete, hne, noRemove_each, List.length_replicate, if_true]
      simpa using ih
  apply hk
  have hl : look nA loaded.cols = some ⟨some ['l', '2'], some [['7']]⟩ := by rfl
  simp only [handle, hl, hloop]

end Alaya.Rest
