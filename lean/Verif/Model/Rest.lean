import Verif.Model.PyParams

/-!
# The REST service

app/routers/client.py, app/models/collection.py (all endpoints are POST below /api/v1) on top of
python/src/alayalite/client.py:29-313 and collection.py:43-570.

The handlers are `async` functions without an `await`, so the event loop runs one request after the
other; a run of the service is a list of requests.

Simplifications.
* A request has passed FastAPI's validation (a body of the wrong shape is answered 422 before any
  of this code runs); numbers in vectors are of an arbitrary type `V`, metadata of a type `M`, values
  in filters of a type `J`.
* The native index is an arbitrary implementation (`Backend`): what it does is C64–C71, C84–C95.  Item ids
  reach it as text (`py::str`, index.hpp:1253, 1263, 1272; parse.hpp:127).
* The file system is an arbitrary environment (`Env`) that decides, request by request, whether
  removing a directory, creating one or writing a schema file fails; of the disk only the names of
  the directories below the data directory that hold a collection schema are kept.  Names with
  slashes or dots are C88.
* `np.asarray` of a list of Python floats (also of an empty one) has dtype float64: numpy.
* FastAPI answers 500 when a handler raises, and when the returned value has no JSON form (NaN or
  infinite distances): Starlette's `JSONResponse` (`allow_nan=False`).
-/

namespace Alaya.Rest

open Alaya.PyParams (Name DType okDtype)

/-- `already exists`: The phrase looked for. app/routers/client.py:51 -/
def alreadyExists : Name :=
  ['a', 'l', 'r', 'e', 'a', 'd', 'y', ' ', 'e', 'x', 'i', 's', 't', 's']

/-- `does not exist`: The phrase looked for. app/routers/client.py:80, 182 -/
def doesNotExist : Name :=
  ['d', 'o', 'e', 's', ' ', 'n', 'o', 't', ' ', 'e', 'x', 'i', 's', 't']

/-- `A collection or index with name '`: client.py:134 -/
def createHead : Name :=
  ['A', ' ', 'c', 'o', 'l', 'l', 'e', 'c', 't', 'i', 'o', 'n', ' ', 'o', 'r', ' ', 'i', 'n', 'd',
    'e', 'x', ' ', 'w', 'i', 't', 'h', ' ', 'n', 'a', 'm', 'e', ' ', '\'']

/-- `Collection '`: client.py:209, 307 -/
def deleteHead : Name :=
  ['C', 'o', 'l', 'l', 'e', 'c', 't', 'i', 'o', 'n', ' ', '\'']

/-- `' `: the end of the quoted name -/
def quoteSp : Name :=
  ['\'', ' ']

/-- `Collection `: app/routers/client.py:61, 97 -/
def missHead : Name :=
  ['C', 'o', 'l', 'l', 'e', 'c', 't', 'i', 'o', 'n', ' ']

/-- `Vector dtype must be one of {(np.float32), (np.int8), (np.uint8)}`: common.py:110-116 -/
def badDtype : Name :=
  ['V', 'e', 'c', 't', 'o', 'r', ' ', 'd', 't', 'y', 'p', 'e', ' ', 'm', 'u', 's', 't', ' ', 'b',
    'e', ' ', 'o', 'n', 'e', ' ', 'o', 'f', ' ', '{', '(', 'n', 'p', '.', 'f', 'l', 'o', 'a', 't',
    '3', '2', ')', ',', ' ', '(', 'n', 'p', '.', 'i', 'n', 't', '8', ')', ',', ' ', '(', 'n', 'p',
    '.', 'u', 'i', 'n', 't', '8', ')', '}']

/-- `Index is not initialized yet`: collection.py:110, 368 -/
def notInit : Name :=
  ['I', 'n', 'd', 'e', 'x', ' ', 'i', 's', ' ', 'n', 'o', 't', ' ', 'i', 'n', 'i', 't', 'i', 'a',
    'l', 'i', 'z', 'e', 'd', ' ', 'y', 'e', 't']

/-- `num_threads must be greater than 0`: collection.py:111 -/
def badThreads : Name :=
  ['n', 'u', 'm', '_', 't', 'h', 'r', 'e', 'a', 'd', 's', ' ', 'm', 'u', 's', 't', ' ', 'b', 'e',
    ' ', 'g', 'r', 'e', 'a', 't', 'e', 'r', ' ', 't', 'h', 'a', 'n', ' ', '0']

/-- `ef_search must be greater than or equal to limit`: collection.py:112 -/
def badEf : Name :=
  ['e', 'f', '_', 's', 'e', 'a', 'r', 'c', 'h', ' ', 'm', 'u', 's', 't', ' ', 'b', 'e', ' ', 'g',
    'r', 'e', 'a', 't', 'e', 'r', ' ', 't', 'h', 'a', 'n', ' ', 'o', 'r', ' ', 'e', 'q', 'u', 'a',
    'l', ' ', 't', 'o', ' ', 'l', 'i', 'm', 'i', 't']

/-- `'NoneType' object has no attribute 'save'`: the text of the AttributeError of collection.py:510 -/
def noSave : Name :=
  ['\'', 'N', 'o', 'n', 'e', 'T', 'y', 'p', 'e', '\'', ' ', 'o', 'b', 'j', 'e', 'c', 't', ' ', 'h',
    'a', 's', ' ', 'n', 'o', ' ', 'a', 't', 't', 'r', 'i', 'b', 'u', 't', 'e', ' ', '\'', 's', 'a',
    'v', 'e', '\'']

/-- `w in text` for Python strings. -/
def isIn (w : Name) : Name → Bool
  | [] => w.isPrefixOf []
  | c :: t => w.isPrefixOf (c :: t) || isIn w t

/-- A Python exception: its text (`str(e)`) and whether it is a `RuntimeError`. -/
structure Exn where
  runtime : Bool
  msg : Name
deriving DecidableEq, Repr

/-- `str(i)` for an integer. -/
def showInt (i : Int) : Name := if i < 0 then '-' :: Nat.toDigits 10 i.natAbs else Nat.toDigits 10 i.natAbs

/-- `[id, document, embedding, metadata]`. app/models/collection.py:45, 50 -/
structure Item (V M : Type) where
  id : Int
  doc : Name
  vec : List V
  info : M

/-- What the native index gets: the id as text. index.hpp:1253, 1263; parse.hpp:127 -/
structure NItem (V M : Type) where
  id : Name
  doc : Name
  vec : List V
  info : M

def Item.native {V M : Type} (i : Item V M) : NItem V M := ⟨showInt i.id, i.doc, i.vec, i.info⟩

/-- The native index, any implementation: `N` are its states, `R` the results of queries. -/
structure Backend (N V M J R : Type) where
  /-- `Index.fit` of a new index. collection.py:258-280 -/
  fit : Option Name → DType → List (NItem V M) → Except Exn N
  /-- conversion, normalisation and `cpp_index.insert`. collection.py:287-296 -/
  insert : N → NItem V M → N × Option Exn
  /-- conversion, normalisation and `cpp_index.upsert`. collection.py:310-319 -/
  upsert : N → NItem V M → N × Option Exn
  /-- `remove_by_item_id`. index.hpp:1271-1273 -/
  remove : N → Name → N × Option Exn
  /-- `_build_filter` and `filter_query`: the item ids found. collection.py:209-236, 460-501 -/
  find : N → List (Name × J) → Nat → Except Exn (List Name)
  /-- everything in `batch_query` after the checks. collection.py:114-146 -/
  query : N → List (List V) → Int → Int → Int → Except Exn R
  /-- `Index.save`. index.py:274-286 -/
  save : N → Option Exn
  /-- the result has a JSON form -/
  json : R → Bool

/-- What the file system does during one request. -/
structure Env where
  /-- `shutil.rmtree` of a collection's or index' directory, when it fails: whether schema.json is gone. -/
  rmtree : Name → Option (Bool × Exn)
  /-- `os.makedirs`, when it fails -/
  mkdir : Name → Option Exn
  /-- `save_schema`, when it fails -/
  schema : Name → Option Exn
  /-- how many rounds of the loop in `delete_by_filter` are observed -/
  rounds : Nat

/-- A `Collection` object. collection.py:43-56 -/
structure Coll (N : Type) where
  metric : Option Name
  index : Option N
deriving DecidableEq

/-- The service: the client's two maps in the order of insertion (client.py:36-37), and the names of the
directories with a collection schema. -/
structure Svc (N : Type) where
  cols : List (Name × Coll N)
  inds : List Name
  dirs : List Name

/-- The requests. app/models/collection.py:25-72 -/
inductive Req (V M J : Type) where
  | create (n : Name)
  | setMetric (n m : Name)
  | list
  | delete (n : Name) (onDisk : Option Bool)
  | reset (onDisk : Option Bool)
  | insert (n : Name) (items : List (Item V M))
  | query (n : Name) (vecs : List (List V)) (limit ef threads : Option Int)
  | upsert (n : Name) (items : List (Item V M))
  | deleteById (n : Name) (ids : List Int)
  | deleteByFilter (n : Name) (filter : List (Name × J))
  | save (n : Name)

/-- The texts of successful answers. -/
inductive Said where
  | created (n : Name)
  | metricSet (n m : Name)
  | deleted (n : Name)
  | wasReset
  | inserted (k : Nat) (n : Name)
  | upserted (k : Nat) (n : Name)
  | removed (n : Name)
  | removedCount (k : Nat) (n : Name)
  | saved (n : Name)
deriving DecidableEq, Repr

/-- Bodies of answers. -/
inductive Body (R : Type) where
  | said (s : Said)
  | names (l : List Name)
  | rows (r : R)
  | error (msg : Name)
  | internal
deriving DecidableEq, Repr

structure Reply (R : Type) where
  status : Nat
  body : Body R
deriving DecidableEq, Repr

section
variable {N V M J R : Type}

/-- `dict.get`. -/
def look (n : Name) : List (Name × Coll N) → Option (Coll N)
  | [] => none
  | (k, c) :: t => if k = n then some c else look n t

/-- Changing the object under a key. -/
def put (n : Name) (c : Coll N) : List (Name × Coll N) → List (Name × Coll N)
  | [] => []
  | (k, d) :: t => if k = n then (k, c) :: t else (k, d) :: put n c t

/-- `dict.pop`. -/
def drop (n : Name) : List (Name × Coll N) → List (Name × Coll N)
  | [] => []
  | (k, d) :: t => if k = n then t else (k, d) :: drop n t

/-- A directory gets a schema file. -/
def addDir (n : Name) (l : List Name) : List Name := if n ∈ l then l else l ++ [n]

/-- A directory is removed. -/
def rmDir (n : Name) (l : List Name) : List Name := l.filter (· ≠ n)

def ok (b : Said) : Reply R := ⟨200, .said b⟩

/-- `except Exception as e: … 400`. app/routers/client.py:101-103 and the like -/
def bad (e : Exn) : Reply R := ⟨400, .error e.msg⟩

/-- The 404 of the handlers that look the collection up. app/routers/client.py:57-62, 93-98, … -/
def missing (n : Name) : Reply R := ⟨404, .error (missHead ++ n ++ ' ' :: doesNotExist)⟩

/-- An exception leaves the handler. -/
def crash : Reply R := ⟨500, .internal⟩

/-- `409 if "already exists" in msg else 400`. app/routers/client.py:48-52 -/
def createError (e : Exn) : Reply R := ⟨if isIn alreadyExists e.msg then 409 else 400, .error e.msg⟩

/-- `404 if "does not exist" in str(e) else 400`. app/routers/client.py:78-81, 180-183 -/
def nameError (e : Exn) : Reply R := ⟨if isIn doesNotExist e.msg then 404 else 400, .error e.msg⟩

/-- `np.asarray(first_embedding).dtype` for a list of Python floats. collection.py:250-251 -/
def npList : DType := .f64

/-- Inserting or upserting one item after the other, until one raises. collection.py:287-296, 310-319 -/
def each {A : Type} (f : N → A → N × Option Exn) (x : N) : List A → N × Option Exn
  | [] => (x, none)
  | a :: t => match f x a with
    | (y, some e) => (y, some e)
    | (y, none) => each f y t

/-- `Collection.insert`: the collection afterwards, whether its schema was written, the exception.
collection.py:238-296, 84-95 -/
def collInsert (B : Backend N V M J R) (env : Env) (n : Name) (c : Coll N) (items : List (Item V M)) :
    Coll N × Bool × Option Exn :=
  if items.isEmpty then (c, false, none)
  else match c.index with
    | none =>
      if okDtype npList = false then (c, false, some ⟨false, badDtype⟩)
      else match B.fit c.metric npList (items.map Item.native) with
        | .error e => (c, false, some e)
        | .ok x => match env.schema n with
          | some e => (⟨c.metric, some x⟩, false, some e)
          | none => (⟨c.metric, some x⟩, true, none)
    | some x => match each B.insert x (items.map Item.native) with
      | (y, r) => (⟨c.metric, some y⟩, false, r)

/-- `Collection.upsert`. collection.py:298-319 -/
def collUpsert (B : Backend N V M J R) (env : Env) (n : Name) (c : Coll N) (items : List (Item V M)) :
    Coll N × Bool × Option Exn :=
  if items.isEmpty then (c, false, none)
  else match c.index with
    | none => collInsert B env n c items
    | some x => match each B.upsert x (items.map Item.native) with
      | (y, r) => (⟨c.metric, some y⟩, false, r)

/-- One `remove_by_item_id` whose `RuntimeError` is swallowed. collection.py:328-332 -/
def tryRemove (B : Backend N V M J R) (x : N) (id : Name) : N × Option Exn :=
  match B.remove x id with
  | (y, some e) => if e.runtime then (y, none) else (y, some e)
  | (y, none) => (y, none)

/-- `Collection.delete_by_id`. collection.py:321-332 -/
def collDelete (B : Backend N V M J R) (c : Coll N) (ids : List Name) : Coll N × Option Exn :=
  if ids.isEmpty then (c, none)
  else match c.index with
    | none => (c, none)
    | some x => match each (tryRemove B) x ids with
      | (y, r) => (⟨c.metric, some y⟩, r)

/-- The loop of `Collection.delete_by_filter` with its batches of 1000; `none` when it has not ended after
so many rounds. collection.py:370-380 -/
def filterLoop (B : Backend N V M J R) (f : List (Name × J)) : Nat → Coll N → Option (Coll N × Option Exn)
  | 0, _ => none
  | k + 1, c => match c.index with
    | none => some (c, some ⟨false, notInit⟩)
    | some x => match B.find x f 1000 with
      | .error e => some (c, some e)
      | .ok ids => match collDelete B c ids with
        | (c', some e) => some (c', some e)
        | (c', none) => if ids.length = 1000 then filterLoop B f k c' else some (c', none)

/-- `Collection.save` and the schema written by the client: the collection is not changed.
client.py:294-313; collection.py:503-512 -/
def collSave (B : Backend N V M J R) (env : Env) (n : Name) (c : Coll N) : Option Exn :=
  match env.mkdir n with
  | some e => some e
  | none => match c.index with
    | none => some ⟨false, noSave⟩
    | some x => match B.save x with
      | some e => some e
      | none => env.schema n

/-- `Collection.batch_query`. collection.py:97-146 -/
def collQuery (B : Backend N V M J R) (c : Coll N) (vecs : List (List V)) (limit ef threads : Int) : Except Exn R :=
  match c.index with
  | none => .error ⟨false, notInit⟩
  | some x =>
    if threads ≤ 0 then .error ⟨false, badThreads⟩
    else if ef < limit then .error ⟨false, badEf⟩
    else B.query x vecs limit ef threads

/-- `Collection.close`. collection.py:560-570 -/
def closed (c : Coll N) : Coll N := ⟨c.metric, none⟩

/-- The `rmtree` loops of `Client.reset`: the directories left, the exception. client.py:259-268 -/
def rmAll (env : Env) : List Name → List Name → List Name × Option Exn
  | [], dirs => (dirs, none)
  | n :: t, dirs => match env.rmtree n with
    | none => rmAll env t (rmDir n dirs)
    | some (gone, e) => (if gone then rmDir n dirs else dirs, some e)

/-- The state after a request that changed one collection. -/
def update (s : Svc N) (n : Name) (c : Coll N) (written : Bool) : Svc N :=
  ⟨put n c s.cols, s.inds, if written then addDir n s.dirs else s.dirs⟩

/-- One request: the answer (`none`: no answer yet) and the service afterwards. app/routers/client.py:43-183 -/
def handle (B : Backend N V M J R) (env : Env) (s : Svc N) : Req V M J → Option (Reply R) × Svc N
  | .create n =>
    if n ∈ s.cols.map Prod.fst ∨ n ∈ s.inds then
      (some (createError ⟨true, createHead ++ n ++ quoteSp ++ alreadyExists⟩), s)
    else (some (ok (.created n)), ⟨s.cols ++ [(n, ⟨none, none⟩)], s.inds, s.dirs⟩)
  | .setMetric n m => match look n s.cols with
    | none => (some (missing n), s)
    | some c => match c.index with
      | some _ => (some crash, s)
      | none => (some (ok (.metricSet n m)), update s n ⟨some m, none⟩ false)
  | .list => (some ⟨200, .names (s.cols.map Prod.fst)⟩, s)
  | .delete n onDisk => match look n s.cols with
    | none => (some (nameError ⟨true, deleteHead ++ n ++ quoteSp ++ doesNotExist⟩), s)
    | some _ =>
      if onDisk.getD false then match env.rmtree n with
        | none => (some (ok (.deleted n)), ⟨drop n s.cols, s.inds, rmDir n s.dirs⟩)
        | some (gone, e) =>
          (some (nameError e), ⟨drop n s.cols, s.inds, if gone then rmDir n s.dirs else s.dirs⟩)
      else (some (ok (.deleted n)), ⟨drop n s.cols, s.inds, s.dirs⟩)
  | .reset onDisk =>
    if onDisk.getD false then match rmAll env (s.cols.map Prod.fst ++ s.inds) s.dirs with
      | (dirs, none) => (some (ok .wasReset), ⟨[], [], dirs⟩)
      | (dirs, some _) => (some crash, ⟨s.cols.map (fun p => (p.1, closed p.2)), s.inds, dirs⟩)
    else (some (ok .wasReset), ⟨[], [], s.dirs⟩)
  | .insert n items => match look n s.cols with
    | none => (some (missing n), s)
    | some c => match collInsert B env n c items with
      | (c', w, none) => (some (ok (.inserted items.length n)), update s n c' w)
      | (c', w, some e) => (some (bad e), update s n c' w)
  | .query n vecs limit ef threads => match look n s.cols with
    | none => (some (missing n), s)
    | some c => match collQuery B c vecs (limit.getD 1) (ef.getD 10) (threads.getD 1) with
      | .error e => (some (bad e), s)
      | .ok r => (some (if B.json r then ⟨200, .rows r⟩ else crash), s)
  | .upsert n items => match look n s.cols with
    | none => (some (missing n), s)
    | some c => match collUpsert B env n c items with
      | (c', w, none) => (some (ok (.upserted items.length n)), update s n c' w)
      | (c', w, some e) => (some (bad e), update s n c' w)
  | .deleteById n ids => match look n s.cols with
    | none => (some (missing n), s)
    | some c => match collDelete B c (ids.map showInt) with
      | (c', none) => (some (ok (.removed n)), update s n c' false)
      | (c', some e) => (some (bad e), update s n c' false)
  | .deleteByFilter n f => match look n s.cols with
    | none => (some (missing n), s)
    | some c => match filterLoop B f env.rounds c with
      | none => (none, s)
      | some (c', none) => (some (ok (.removedCount f.length n)), update s n c' false)
      | some (c', some e) => (some (bad e), update s n c' false)
  | .save n => match look n s.cols with
    | none => (some (nameError ⟨true, deleteHead ++ n ++ quoteSp ++ doesNotExist⟩), s)
    | some c => match collSave B env n c with
      | some e => (some (nameError e), s)
      | none => (some (ok (.saved n)), update s n c true)

/-- Stopping and starting the service: every directory with a collection schema is loaded (`load` says with
what), the indexes are those found. client.py:39-57 -/
def restart (load : Name → Coll N) (inds : List Name) (s : Svc N) : Svc N :=
  ⟨s.dirs.map (fun n => (n, load n)), inds, s.dirs⟩

/-- What happens to a service. -/
inductive Ev (N V M J : Type) where
  | req (env : Env) (r : Req V M J)
  | restart (load : Name → Coll N) (inds : List Name)

/-- One event. -/
def evStep (B : Backend N V M J R) (s : Svc N) : Ev N V M J → Svc N
  | .req env r => (handle B env s r).2
  | .restart load inds => restart load inds s

/-- A run. -/
def run (B : Backend N V M J R) (s : Svc N) (evs : List (Ev N V M J)) : Svc N := evs.foldl (evStep B) s

/-- A service on an empty data directory. -/
def Svc.empty : Svc N := ⟨[], [], []⟩

end

end Alaya.Rest
