import Verif.Model.Rest

/-!
# What the REST service promises
-/

namespace Alaya.Rest

open Alaya.PyParams (Name)

section
variable {N V M J R : Type}

/-- The names `list` answers with. -/
def Svc.names (s : Svc N) : List Name := s.cols.map Prod.fst

/-- The service has a collection `n`, and it is `c`. -/
def Has (s : Svc N) (n : Name) (c : Coll N) : Prop := (n, c) ∈ s.cols

/-- No two collections, and no two directories, have the same name. -/
def Proper (s : Svc N) : Prop := s.names.Nodup ∧ s.dirs.Nodup

/-- The collection a request is about (for `create`: the one to be made). -/
def Req.about : Req V M J → Option Name
  | .create n | .setMetric n _ | .delete n _ | .insert n _ | .query n _ _ _ _ | .upsert n _
  | .deleteById n _ | .deleteByFilter n _ | .save n => some n
  | .list | .reset _ => none

/-- The collection a request needs. -/
def Req.needs : Req V M J → Option Name
  | .create _ | .list | .reset _ => none
  | .setMetric n _ | .delete n _ | .insert n _ | .query n _ _ _ _ | .upsert n _
  | .deleteById n _ | .deleteByFilter n _ | .save n => some n

/-- The names in a client's book that notes every creation, deletion and reset answered 200. -/
def noted (l : List Name) (r : Req V M J) (status : Option Nat) : List Name :=
  if status = some 200 then match r with
    | .create n => l ++ [n]
    | .delete n _ => l.filter (· ≠ n)
    | .reset _ => []
    | _ => l
  else l

/-- The status of an answer. -/
def statusOf (a : Option (Reply R) × Svc N) : Option Nat := a.1.map Reply.status

/-- The book after a list of requests, each with its answer. -/
def book (B : Backend N V M J R) : Svc N → List Name → List (Env × Req V M J) → List Name
  | _, l, [] => l
  | s, l, (env, r) :: t => book B (handle B env s r).2 (noted l r (statusOf (handle B env s r))) t

/-- The service after a list of requests. -/
def after (B : Backend N V M J R) (s : Svc N) (rs : List (Env × Req V M J)) : Svc N :=
  rs.foldl (fun s p => (handle B p.1 s p.2).2) s

/-- Removing directories works. -/
def Env.Calm (env : Env) : Prop := ∀ n, env.rmtree n = none

/-- The text of an exception does not speak of something that "does not exist". -/
def Silent (e : Exn) : Prop := ¬ doesNotExist <:+: e.msg

/-- Every item was taken, in order. -/
inductive Took {A : Type} (f : N → A → N × Option Exn) : N → List A → N → Prop
  | nil (x : N) : Took f x [] x
  | cons {x y z : N} {a : A} {t : List A} : f x a = (y, none) → Took f y t z → Took f x (a :: t) z

/-- Removing an id worked, or raised a `RuntimeError` (there is no such id). -/
def Attempt (B : Backend N V M J R) (x : N) (id : Name) (y : N) : Prop :=
  B.remove x id = (y, none) ∨ ∃ e, e.runtime = true ∧ B.remove x id = (y, some e)

/-- Removing each of the ids was attempted, in order. -/
inductive Attempts (B : Backend N V M J R) : N → List Name → N → Prop
  | nil (x : N) : Attempts B x [] x
  | cons {x y z : N} {id : Name} {t : List Name} : Attempt B x id y → Attempts B y t z → Attempts B x (id :: t) z

/-- Rounds of finding and removing, until fewer than 1000 are found. -/
inductive Rounds (B : Backend N V M J R) (f : List (Name × J)) : N → N → Prop
  | last {x y : N} {ids : List Name} : B.find x f 1000 = .ok ids → ids.length ≠ 1000 → Attempts B x ids y → Rounds B f x y
  | more {x y z : N} {ids : List Name} : B.find x f 1000 = .ok ids → ids.length = 1000 → Attempts B x ids y →
      Rounds B f y z → Rounds B f x z

/-- The collection `n` has data: an index in memory, or a directory with its schema. -/
def Filled (s : Svc N) (n : Name) : Prop := (∃ c, Has s n c ∧ c.index ≠ none) ∨ n ∈ s.dirs

/-- An event that may take the schema of `n` from the disk. -/
def Ev.Erases (n : Name) : Ev N V M J → Prop
  | .req _ (.delete k d) => k = n ∧ d = some true
  | .req _ (.reset d) => d = some true
  | _ => False

/-- A request to save `n`. -/
def Ev.Saves (n : Name) : Ev N V M J → Prop
  | .req _ (.save k) => k = n
  | _ => False

end

end Alaya.Rest
