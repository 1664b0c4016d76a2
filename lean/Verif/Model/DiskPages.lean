import Verif.Model.DiskLayout

/-!
The write-back page cache and the page I/O of the disk graph.
/repo/include/index/graph/diskann/disk_page_cache.hpp, disk_page_io.hpp.

A page map (`std::unordered_map`) is a list of entries; its iteration order is a parameter of the loops over it.  The disk maps
page offsets to contents.  A `pwrite` may fail and leave anything in the page; which ones fail is a parameter (`Io`) of every
operation, indexed by the page (one operation writes a page at most once).
-/
namespace Alaya.DiskPages
open Alaya.DiskSlots (Out)

/-- `DiskPageCache::Entry` without the iterator. disk_page_cache.hpp:95-99 -/
structure Entry where
  bytes : Bytes
  dirty : Bool

/-- `pages_` as a list. disk_page_cache.hpp:101, 125 -/
abbrev PageMap := List (Nat × Entry)

/-- `pages_.find`. -/
def PageMap.find (m : PageMap) (off : Nat) : Option Entry :=
  match m with
  | [] => none
  | (o, e) :: m => if o = off then some e else PageMap.find m off

/-- Assignment through an iterator to `off`. -/
def PageMap.update (m : PageMap) (off : Nat) (e : Entry) : PageMap :=
  m.map (fun x => if x.1 = off then (off, e) else x)

/-- `pages_.erase`, `pages_.extract`. -/
def PageMap.remove (m : PageMap) (off : Nat) : PageMap := m.filter (fun x => x.1 ≠ off)

/-- `class DiskPageCache`; the front of `lru_` is the head. disk_page_cache.hpp:17-126 -/
structure Cache where
  cap : Nat
  lru : List Nat
  pages : PageMap

/-- `touch`. disk_page_cache.hpp:103-106 -/
def touch (lru : List Nat) (off : Nat) : List Nat := off :: lru.filter (· ≠ off)

/-- Page contents by offset. -/
abbrev Disk := Nat → Bytes

/-- Which page writes of an operation fail, and what they leave. -/
abbrev Io := Nat → Option Bytes

/-- The outcome of an operation with state: undefined, thrown (with the state it leaves), or done. -/
inductive Res (σ : Type) where
  | ub
  | throws (s : σ)
  | ok (s : σ)

/-- `write_page_to_disk`: whether it succeeded, and the disk. disk_page_io.hpp:989-1000 -/
def pwrite (io : Io) (d : Disk) (off : Nat) (b : Bytes) : Bool × Disk :=
  match io off with
  | none => (true, fun o => if o = off then b else d o)
  | some junk => (false, fun o => if o = off then junk else d o)

/-- `read`. disk_page_cache.hpp:23-34 -/
def Cache.read (c : Cache) (off : Nat) : Option (Bytes × Cache) :=
  if c.cap = 0 then none
  else match c.pages.find off with
    | none => none
    | some e => some (e.bytes, { c with lru := touch c.lru off })

/-- `evict_excess`; the loop runs at most once per entry. disk_page_cache.hpp:111-121 -/
def evictExcess (io : Io) : Nat → Cache → Disk → Res (Cache × Disk)
  | 0, c, d => .ok (c, d)
  | n + 1, c, d =>
    if c.pages.length ≤ c.cap then .ok (c, d)
    else match c.lru.getLast? with
      | none => .ub
      | some v =>
        let c' : Cache := { c with lru := c.lru.dropLast, pages := c.pages.remove v }
        match c.pages.find v with
        | some e =>
          if e.dirty then
            match pwrite io d v e.bytes with
            | (true, d') => evictExcess io n c' d'
            | (false, d') => .throws (c, d')
          else evictExcess io n c' d
        | none => evictExcess io n c' d

/-- `write`. disk_page_cache.hpp:37-79 -/
def Cache.write (io : Io) (c : Cache) (d : Disk) (off : Nat) (b : Bytes) (dirty : Bool) : Res (Cache × Disk) :=
  if c.cap = 0 then .ok (c, d)
  else match c.pages.find off with
    | some e => .ok ({ c with pages := c.pages.update off ⟨b, e.dirty || dirty⟩, lru := touch c.lru off }, d)
    | none =>
      if c.cap ≤ c.pages.length then
        match evictExcess io c.pages.length c d with
        | .ub => .ub
        | .throws s => .throws s
        | .ok (c, d) =>
          match c.lru.getLast? with
          | none => .ub
          | some v =>
            match c.pages.find v with
            | none => .ok ({ c with lru := off :: c.lru.dropLast, pages := (off, ⟨b, dirty⟩) :: c.pages }, d)
            | some e =>
              let c' : Cache := { c with lru := off :: c.lru.dropLast, pages := (off, ⟨b, dirty⟩) :: c.pages.remove v }
              if e.dirty then
                match pwrite io d v e.bytes with
                | (true, d') => .ok (c', d')
                | (false, d') => .throws (c, d')
              else .ok (c', d)
      else .ok ({ c with lru := off :: c.lru, pages := (off, ⟨b, dirty⟩) :: c.pages }, d)

/-- `flush_dirty`, visiting the entries in the given order. disk_page_cache.hpp:82-90 -/
def flushDirty (io : Io) : List Nat → Cache → Disk → Res (Cache × Disk)
  | [], c, d => .ok (c, d)
  | off :: rest, c, d =>
    match c.pages.find off with
    | none => flushDirty io rest c d
    | some e =>
      if e.dirty then
        match pwrite io d off e.bytes with
        | (true, d') => flushDirty io rest { c with pages := c.pages.update off ⟨e.bytes, false⟩ } d'
        | (false, d') => .throws (c, d')
      else flushDirty io rest c d

/-- `class DiskPageIO`: a cache and a version map per shard, the file.  `shard` is the choice of the shard by page offset.
disk_page_io.hpp:504-538, 905-922 -/
structure PageIO where
  caches : Nat → Cache
  versions : Nat → Nat
  disk : Disk
  fileSize : Nat

/-- Replace the cache of a shard and the disk. -/
def PageIO.put (p : PageIO) (s : Nat) (c : Cache) (d : Disk) : PageIO :=
  { p with caches := fun x => if x = s then c else p.caches x, disk := d }

/-- `read_page_locked_off`: the page and the new state.  `none` inside `ok`/`throws`: the read of the file failed (past the end).
disk_page_io.hpp:950-970 -/
def PageIO.readPage (sh : Nat → Nat) (ps : Nat) (io : Io) (p : PageIO) (off : Nat) : Res (Option Bytes × PageIO) :=
  let s := sh off
  match (p.caches s).read off with
  | some (b, c) => .ok (some b, p.put s c p.disk)
  | none =>
    if p.fileSize < off + ps then .throws (none, p)
    else match (p.caches s).write io p.disk off (p.disk off) false with
      | .ub => .ub
      | .throws (c, d) => .throws (none, p.put s c d)
      | .ok (c, d) => .ok (some (p.disk off), p.put s c d)

/-- `write_page_locked` with the content of the page buffer. disk_page_io.hpp:972-987 -/
def PageIO.writePage (sh : Nat → Nat) (io : Io) (p : PageIO) (off : Nat) (b : Bytes) : Res PageIO :=
  let s := sh off
  let bump (p : PageIO) : PageIO := { p with versions := fun o => if o = off then p.versions o + 1 else p.versions o }
  if (p.caches s).cap = 0 then
    match pwrite io p.disk off b with
    | (true, d) => .ok (bump { p with disk := d })
    | (false, d) => .throws { p with disk := d }
  else match (p.caches s).write io p.disk off b true with
    | .ub => .ub
    | .throws (c, d) => .throws (p.put s c d)
    | .ok (c, d) => .ok (bump (p.put s c d))

/-- `flush_dirty_pages` over the given shards, each in the given order. disk_page_io.hpp:484-493 -/
def PageIO.flush (io : Io) : List (Nat × List Nat) → PageIO → Res PageIO
  | [], p => .ok p
  | (s, order) :: rest, p =>
    match flushDirty io order (p.caches s) p.disk with
    | .ub => .ub
    | .throws (c, d) => .throws (p.put s c d)
    | .ok (c, d) => PageIO.flush io rest (p.put s c d)

/-- `search_peek_page`: the page, or the version to offer it back with. disk_page_io.hpp:754-762 -/
def PageIO.peek (sh : Nat → Nat) (p : PageIO) (off : Nat) : (Bytes × PageIO) ⊕ Nat :=
  match (p.caches (sh off)).read off with
  | some (b, c) => .inl (b, p.put (sh off) c p.disk)
  | none => .inr (p.versions off)

/-- `search_fill_page` with the bytes read from the device and the version observed: the bytes the caller goes on with.  Also the
locked second half of `read_page_snapshot`. disk_page_io.hpp:770-788, 804-821 -/
def PageIO.fill (sh : Nat → Nat) (ps : Nat) (io : Io) (p : PageIO) (off : Nat) (buf : Bytes) (ver : Nat) : Res (Option Bytes × PageIO) :=
  let s := sh off
  match (p.caches s).read off with
  | some (b, c) => .ok (some b, p.put s c p.disk)
  | none =>
    if p.versions off ≠ ver then p.readPage sh ps io off
    else match (p.caches s).write io p.disk off buf false with
      | .ub => .ub
      | .throws (c, d) => .throws (none, p.put s c d)
      | .ok (c, d) => .ok (some buf, p.put s c d)

/-- A freshly opened file. disk_page_io.hpp:80-99 -/
def PageIO.open' (cap : Nat) (d : Disk) (fileSize : Nat) : PageIO := ⟨fun _ => ⟨cap, [], []⟩, fun _ => 0, d, fileSize⟩

end Alaya.DiskPages
