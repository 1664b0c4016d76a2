import Verif.Model.Bitsets

/-
Slot bookkeeping of the updatable disk index.
/repo/include/index/graph/diskann/visited_bitset.hpp, tombstone_bitmap.hpp, slot_allocator.hpp.
A word is a `BitVec 64`.
-/
namespace Alaya.DiskSlots
open Alaya

/-! ### VisitedBitset -/

/-- `class VisitedBitset`. visited_bitset.hpp:13-79 -/
structure Visited where
  nBits : Nat
  words : List (BitVec 64)
  dirty : List Nat
  deriving DecidableEq, Repr

/-- Result of a call: undefined behaviour (an access outside of `words_`), an exception, or a value. -/
inductive Out (α : Type) where
  | ub
  | throws
  | ok (a : α)
  deriving DecidableEq, Repr

/-- `resize`; the word count is computed in 64 bits. visited_bitset.hpp:15-19, 62-64 -/
def Visited.resize (n : Nat) : Visited := ⟨n, List.replicate ((n + 63) % U64 / 64) 0#64, []⟩

/-- The loop of `clear`. visited_bitset.hpp:22-24 -/
def clearLoop (ws : List (BitVec 64)) : List Nat → Option (List (BitVec 64))
  | [] => some ws
  | w :: d => if w < ws.length then clearLoop (ws.set w 0#64) d else none

/-- `clear`. visited_bitset.hpp:21-26 -/
def Visited.clear (b : Visited) : Out Visited :=
  match clearLoop b.words b.dirty with
  | none => .ub
  | some ws => .ok { b with words := ws, dirty := [] }

/-- `test`. visited_bitset.hpp:28-32 -/
def Visited.test (b : Visited) (id : Nat) : Out Bool :=
  if b.nBits ≤ id then .throws
  else match b.words[id >>> 6]? with
    | none => .ub
    | some w => .ok ((w &&& (1#64 <<< (id &&& 63))) != 0#64)

/-- `set`. visited_bitset.hpp:34-41 -/
def Visited.set (b : Visited) (id : Nat) : Out Visited :=
  if b.nBits ≤ id then .throws
  else match b.words[id >>> 6]? with
    | none => .ub
    | some w => .ok { b with
        words := b.words.set (id >>> 6) (w ||| (1#64 <<< (id &&& 63)))
        dirty := if w = 0#64 then b.dirty ++ [id >>> 6] else b.dirty }

/-- `test_and_set`. visited_bitset.hpp:43-53 -/
def Visited.testAndSet (b : Visited) (id : Nat) : Out (Bool × Visited) :=
  if b.nBits ≤ id then .throws
  else match b.words[id >>> 6]? with
    | none => .ub
    | some w => .ok (!((w &&& (1#64 <<< (id &&& 63))) != 0#64), { b with
        words := b.words.set (id >>> 6) (w ||| (1#64 <<< (id &&& 63)))
        dirty := if w = 0#64 then b.dirty ++ [id >>> 6] else b.dirty })

/-- The calls that change the set. -/
inductive VCall where
  | set (id : Nat)
  | testAndSet (id : Nat)
  | clear
  | resize (n : Nat)
  deriving DecidableEq, Repr

/-- One call; a call that throws changes nothing. -/
def Visited.step (b : Visited) : VCall → Out Visited
  | .set id => match b.set id with
    | .throws => .ok b
    | r => r
  | .testAndSet id => match b.testAndSet id with
    | .throws => .ok b
    | .ub => .ub
    | .ok r => .ok r.2
  | .clear => b.clear
  | .resize n => .ok (Visited.resize n)

def Visited.run (b : Visited) : List VCall → Out Visited
  | [] => .ok b
  | c :: cs => match b.step c with
    | .ok b' => b'.run cs
    | .throws => .throws
    | .ub => .ub

/-! ### TombstoneBitmap -/

/-- `class TombstoneBitmap`: the chunk table (65536 entries), `num_bits_`, `count_`.  The atomics are taken as plain fields:
mutators run under the exclusive update lock.  tombstone_bitmap.hpp:75-320 -/
structure Tomb where
  table : Nat → Option (List (BitVec 64))
  numBits : Nat
  count : Nat

/-- A fresh chunk: 1024 zero words. tombstone_bitmap.hpp:82-85, 238-240 -/
def zeroChunk : List (BitVec 64) := List.replicate 1024 0#64

/-- The default constructor. tombstone_bitmap.hpp:87 -/
def Tomb.empty : Tomb := ⟨fun _ => none, 0, 0⟩

/-- `chunk_grow` (the chunk is in the table afterwards); `none` = throws. tombstone_bitmap.hpp:254-276, 289-296 -/
def Tomb.grow (t : Tomb) (id : Nat) : Option Tomb :=
  if 65536 ≤ id / 65536 then none
  else match t.table (id / 65536) with
    | some _ => some t
    | none => some { t with
        table := fun c => if c = id / 65536 then some zeroChunk else t.table c
        numBits := max t.numBits ((id / 65536 + 1) * 65536) }

/-- The loop of `ensure_capacity` over `n` chunks. tombstone_bitmap.hpp:283-285 -/
def Tomb.growLoop (t : Tomb) (c : Nat) : Nat → Option Tomb
  | 0 => some t
  | n + 1 => match t.grow (c * 65536) with
    | none => none
    | some t' => t'.growLoop (c + 1) n

/-- `ensure_capacity`. tombstone_bitmap.hpp:279-287 -/
def Tomb.ensure (t : Tomb) (bits : Nat) : Option Tomb :=
  if bits = 0 then some t
  else match t.growLoop 0 ((bits + 65535) / 65536) with
    | none => none
    | some t' => some { t' with numBits := max t'.numBits ((bits + 65535) / 65536 * 65536) }

/-- `reset`, also the sizing constructor. tombstone_bitmap.hpp:90-107 -/
def Tomb.reset (bits : Nat) : Option Tomb := Tomb.empty.ensure bits

/-- `set`; `none` = throws. A read outside of the 1024 words of a chunk cannot happen (the index is masked); a chunk of
another length does not occur (`TombInv`).  tombstone_bitmap.hpp:112-120 -/
def Tomb.set (t : Tomb) (id : Nat) : Option Tomb :=
  match t.grow id with
  | none => none
  | some t' =>
    match t'.table (id / 65536) with
    | none => none
    | some ws =>
      let i := (id / 64) % 1024
      let old := ws.getD i 0#64
      let mask := 1#64 <<< (id % 64)
      some { t' with
        table := fun c => if c = id / 65536 then some (ws.set i (old ||| mask)) else t'.table c
        count := if (old &&& mask) = 0#64 then t'.count + 1 else t'.count }

/-- `clear`. tombstone_bitmap.hpp:124-135 -/
def Tomb.clear (t : Tomb) (id : Nat) : Tomb :=
  if 65536 ≤ id / 65536 then t
  else match t.table (id / 65536) with
    | none => t
    | some ws =>
      let i := (id / 64) % 1024
      let old := ws.getD i 0#64
      let mask := 1#64 <<< (id % 64)
      { t with
        table := fun c => if c = id / 65536 then some (ws.set i (old &&& ~~~mask)) else t.table c
        count := if (old &&& mask) ≠ 0#64 then t.count - 1 else t.count }

/-- `is_deleted`. tombstone_bitmap.hpp:139-146 -/
def Tomb.isDeleted (t : Tomb) (id : Nat) : Bool :=
  if 65536 ≤ id / 65536 then false
  else match t.table (id / 65536) with
    | none => false
    | some ws => ((ws.getD ((id / 64) % 1024) 0#64 >>> (id % 64)) &&& 1#64) != 0#64

/-- The word `i` of chunk `c`, 0 if the chunk is absent. -/
def Tomb.word (t : Tomb) (c i : Nat) : BitVec 64 :=
  match t.table c with
  | none => 0#64
  | some ws => ws.getD i 0#64

/-- `TombstoneSnapshot`. tombstone_bitmap.hpp:50-73 -/
structure Snap where
  words : List (BitVec 64)
  numBits : Nat

/-- `snapshot_into`. tombstone_bitmap.hpp:156-167 -/
def Tomb.snapshot (t : Tomb) : Snap :=
  ⟨(List.range (t.numBits / 64)).map (fun w => t.word (w / 1024) (w % 1024)), t.numBits / 64 * 64⟩

/-- `TombstoneSnapshot::is_deleted`; `none` = outside of the words. tombstone_bitmap.hpp:52-57 -/
def Snap.isDeleted (s : Snap) (id : Nat) : Option Bool :=
  if s.numBits ≤ id then some false
  else match s.words[id / 64]? with
    | none => none
    | some w => some (((w >>> (id % 64)) &&& 1#64) != 0#64)

def tombMagic : Nat := 0x414C5954424D5031

/-- `serialize`. tombstone_bitmap.hpp:171-183 -/
def Tomb.serialize (t : Tomb) : Bytes :=
  let n := t.numBits / 64
  leBytes 8 tombMagic ++ leBytes 8 n ++
    (List.range ((n + 1023) / 1024)).flatMap (fun c =>
      (List.range (min 1024 (n - c * 1024))).flatMap (fun i => leBytes 8 (t.word c i).toNat))

/-- `std::popcount`. -/
def popcount (w : BitVec 64) : Nat := ((List.range 64).filter (fun i => w.getLsbD i)).length

/-- `span` words from the stream. -/
def readWords : Nat → Bytes → List (BitVec 64)
  | 0, _ => []
  | n + 1, bs => BitVec.ofNat 64 (leNat (bs.take 8)) :: readWords n (bs.drop 8)

/-- The loop of `deserialize` from chunk `c` with `left` words left (`n` rounds).  A missing chunk is dereferenced: undefined
behaviour.  tombstone_bitmap.hpp:200-213 -/
def Tomb.deserLoop (t : Tomb) (c left recount : Nat) (bs : Bytes) : Nat → Out (Tomb × Bytes)
  | 0 => .ok ({ t with count := recount }, bs)
  | n + 1 =>
    let span := min 1024 left
    if bs.length < span * 8 then .throws
    else match t.table c with
      | none => .ub
      | some old =>
        let ws := readWords span bs
        Tomb.deserLoop { t with table := fun x => if x = c then some (ws ++ old.drop span) else t.table x }
          (c + 1) (left - span) (recount + (ws.map popcount).sum) (bs.drop (span * 8)) n

/-- `deserialize`: the new state and the rest of the stream.  `n_words * 64` is computed in 64 bits.
tombstone_bitmap.hpp:188-215 -/
def Tomb.deserialize (bs : Bytes) : Out (Tomb × Bytes) :=
  if bs.length < 16 then .throws
  else if leNat (bs.take 8) ≠ tombMagic then .throws
  else
    let n := leNat ((bs.drop 8).take 8)
    match Tomb.reset (n * 64 % U64) with
    | none => .throws
    | some t => t.deserLoop 0 n 0 (bs.drop 16) ((n + 1023) / 1024)

/-! ### SlotAllocator -/

/-- `class SlotAllocator`; the back of the vector `free_list_` is the head of `free`. slot_allocator.hpp:38-144 -/
structure Slots where
  free : List Nat
  next : Nat
  tomb : Tomb

/-- The constructor for an index of `n` nodes, and `reset`. slot_allocator.hpp:46-55 -/
def Slots.mk' (n : Nat) : Option Slots := (Tomb.reset n).map (fun t => ⟨[], n, t⟩)

/-- `alloc`; the counter is a `uint32_t`. slot_allocator.hpp:59-69 -/
def Slots.alloc (s : Slots) : Option (Nat × Slots) :=
  match s.free with
  | id :: rest => (s.tomb.set id).map (fun t => (id, { s with free := rest, tomb := t }))
  | [] => (s.tomb.set s.next).map (fun t => (s.next, { s with next := (s.next + 1) % 4294967296, tomb := t }))

/-- `publish`. slot_allocator.hpp:72 -/
def Slots.publish (s : Slots) (id : Nat) : Slots := { s with tomb := s.tomb.clear id }

/-- `free`. slot_allocator.hpp:75-78 -/
def Slots.release (s : Slots) (id : Nat) : Option Slots := (s.tomb.set id).map (fun t => { s with free := id :: s.free, tomb := t })

def slotMagic : Nat := 0x414C59534C4F5431

/-- `save`. slot_allocator.hpp:90-110 -/
def Slots.save (s : Slots) : Bytes :=
  leBytes 8 slotMagic ++ leBytes 8 s.next ++ leBytes 8 s.free.length ++ s.free.reverse.flatMap (leBytes 4) ++ s.tomb.serialize

/-- `n` 32-bit values from the stream. -/
def readU32s : Nat → Bytes → List Nat
  | 0, _ => []
  | n + 1, bs => leNat (bs.take 4) :: readU32s n (bs.drop 4)

/-- `load`.  A free list that does not fit the file throws (`bad_alloc`, `length_error` or the explicit error).
slot_allocator.hpp:113-140 -/
def Slots.load (bs : Bytes) : Out Slots :=
  if bs.length < 24 then .throws
  else if leNat (bs.take 8) ≠ slotMagic then .throws
  else
    let next := leNat ((bs.drop 8).take 8)
    let n := leNat ((bs.drop 16).take 8)
    let rest := bs.drop 24
    if rest.length < n * 4 then .throws
    else if 4294967295 < next then .throws
    else match Tomb.deserialize (rest.drop (n * 4)) with
      | .ub => .ub
      | .throws => .throws
      | .ok (t, _) => .ok ⟨(readU32s n rest).reverse, next, t⟩

end Alaya.DiskSlots
