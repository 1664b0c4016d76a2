import Verif.Model.PyReindex

/-
Several collections under one `Client`: /repo/python/src/alayalite/client.py, /repo/python/src/alayalite/collection.py:25-57,
503-537, and the place of their recovery directories (/repo/python/include/index.hpp:144-152).

Paths are byte strings and are resolved like the operating system does on existing directories without symbolic
links. The state on disk is one recovery directory per path (the other files of a collection are derived from
it by `load`, see `Model/Recovery`). Each collection reads the clock for itself.
-/
namespace Alaya.Client
open Recovery Py

/-- The separator. -/
def slash : UInt8 := 47

/-- Segments between separators. -/
def segs : Bytes → List Bytes
  | [] => [[]]
  | c :: cs =>
    if c = slash then [] :: segs cs
    else
      match segs cs with
      | [] => [[c]]
      | s :: r => (c :: s) :: r

/-- Following the segments from a directory. -/
def walk (dir : List Bytes) : List Bytes → List Bytes
  | [] => dir
  | s :: r =>
    if s = [] ∨ s = str "." then walk dir r
    else if s = str ".." then walk dir.dropLast r
    else walk (dir ++ [s]) r

/-- The directory a path names. -/
def resolve (cwd : List Bytes) (p : Bytes) : List Bytes :=
  walk (if p.head? = some slash then [] else cwd) (segs p)

/-- `os.path.join` of two paths (posixpath). -/
def join (a b : Bytes) : Bytes :=
  if b.head? = some slash then b
  else if a = [] ∨ a.getLast? = some slash then a ++ b
  else a ++ [slash] ++ b

/-- `path.parent_path()` with its separator kept (it names the same directory). -/
def parentDir (p : Bytes) : Bytes := (p.reverse.dropWhile (fun c => decide (c ≠ slash))).reverse

/-- The directory of write-ahead log and snapshots of a collection. /repo/python/include/index.hpp:148. -/
def recoveryRoot (cwd : List Bytes) (rocksdbPath : Bytes) : List Bytes :=
  resolve cwd (parentDir rocksdbPath ++ str "recovery")

/-- The path given by `create_collection` when the caller gives none and the client has a url.
/repo/python/src/alayalite/client.py:136-138. -/
def clientPath (url name : Bytes) : Bytes := join (join url name) (str "rocksdb")

/-- The path of a collection of a client without url (`ALAYALITE_ROCKSDB_DIR`, default `./RocksDB`).
/repo/python/src/alayalite/collection.py:29-30, 52-53. -/
def defaultPath (base name : Bytes) : Bytes := join base name

/-- The directory that `delete_collection(name, delete_on_disk=True)` removes.
/repo/python/src/alayalite/client.py:214-217. -/
def collectionDir (cwd : List Bytes) (url name : Bytes) : List Bytes := resolve cwd (join url name)

/-- What happens to one collection. -/
inductive CEv where
  /-- first insert: a native index with this content is fitted -/
  | fit (s : Index) (dt : Nat)
  /-- later calls, snapshots, crashes, restarts -/
  | ev (e : Event)
  /-- `delete_collection` -/
  | drop (onDisk : Bool)
  deriving DecidableEq, Repr

/-- An empty recovery directory. -/
def noDisk : Disk Index := ⟨none, 0, none, []⟩

/-- One event of a collection, on its recovery directory, clock and memory. A failed `load` leaves it closed.
`fit` on an open collection does not happen. Simplified: `fit` is taken to succeed; over an existing database (a collection
deleted in memory only and created again) it throws instead (/repo/include/space/raw_space.hpp:148).
/repo/python/src/alayalite/collection.py:247-281. -/
def cstep (y : Sys Index) : CEv → Sys Index
  | .fit s dt => match y.mem with
    | none => fitNew y dt s
    | some _ => y
  | .ev e => (step sem y e).getD y
  | .drop onDisk => ⟨if onDisk then noDisk else y.disk, y.clock, none⟩

/-- Everything: recovery directories and schema files by path; clock and memory by collection name. -/
structure World where
  disk : List Bytes → Disk Index
  schema : List Bytes → Bool
  clock : Bytes → Nat
  mem : Bytes → Option (Mem Index)

/-- Where the files of a collection are: recovery directory, the directory of the `schema.json` written by the first
insert (/repo/python/src/alayalite/collection.py:84-95), and the directory of the client's `save_collection` and
`delete_collection` (/repo/python/src/alayalite/client.py:214-217, 309-312). -/
structure Places where
  root : Bytes → List Bytes
  schemaDir : Bytes → List Bytes
  dir : Bytes → List Bytes

/-- The places for a client with this url, given the `rocksdb_path` of each collection. -/
def placesFor (cwd : List Bytes) (url : Bytes) (path : Bytes → Bytes) : Places :=
  ⟨fun n => recoveryRoot cwd (path n), fun n => resolve cwd (parentDir (path n)), collectionDir cwd url⟩

/-- The part of the world a collection sees. -/
def World.see (w : World) (pl : Places) (n : Bytes) : Sys Index := ⟨w.disk (pl.root n), w.clock n, w.mem n⟩

/-- `rmtree`: everything below the directory is gone. -/
def rmtree {α : Type} (dir : List Bytes) (gone : α) (files : List Bytes → α) : List Bytes → α :=
  fun p => if dir.isPrefixOf p then gone else files p

/-- Writing one file. -/
def put {α : Type} (at_ : List Bytes) (x : α) (files : List Bytes → α) : List Bytes → α :=
  fun p => if p = at_ then x else files p

/-- One event of the collection `n`: the others keep their memory; its recovery directory is written; the first insert and
`save` write a schema; a deletion on disk removes its directory.
/repo/python/src/alayalite/client.py:119-141, 197-217, 294-312. -/
def wstep (pl : Places) (w : World) (n : Bytes) (e : CEv) : World :=
  let y := cstep (w.see pl n) e
  let w1 : World := { w with
    clock := fun k => if k = n then y.clock else w.clock k
    mem := fun k => if k = n then y.mem else w.mem k }
  match e with
  | .drop true => { w1 with disk := rmtree (pl.dir n) noDisk w.disk, schema := rmtree (pl.dir n) false w.schema }
  | .drop false => w1
  | .fit _ _ => { w1 with
      disk := put (pl.root n) y.disk w.disk
      schema := if (w.mem n).isSome then w.schema else put (pl.schemaDir n) true w.schema }
  | .ev (.checkpoint _) => { w1 with
      disk := put (pl.root n) y.disk w.disk
      schema := if (w.mem n).isSome then put (pl.dir n) true w.schema else w.schema }
  | .ev _ => { w1 with disk := put (pl.root n) y.disk w.disk }

/-- An interleaved history. -/
def wrun (pl : Places) (w : World) (h : List (Bytes × CEv)) : World :=
  h.foldl (fun w x => wstep pl w x.1 x.2) w

/-- A collection alone. -/
def crun (y : Sys Index) (h : List CEv) : Sys Index := h.foldl cstep y

/-- Nothing on disk. -/
def World.empty : World := ⟨fun _ => noDisk, fun _ => false, fun _ => 0, fun _ => none⟩

/-- Collections found by a new `Client(url)`: directories in the url with a schema (of a collection).
/repo/python/src/alayalite/client.py:46-57. -/
def listed (cwd : List Bytes) (url : Bytes) (w : World) (n : Bytes) : Bool := w.schema (resolve cwd url ++ [n])

end Alaya.Client
