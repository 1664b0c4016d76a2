import Verif.Model.Bytes

/-
Bitsets and visited sets of /repo/include/utils/query_utils.hpp.  A word is a `BitVec 64`; `none` is an access
outside of the word array (undefined behaviour).
-/
namespace Alaya

/-- `class DynamicBitset`. query_utils.hpp:58-119. -/
structure DynBitset where
  words : List (BitVec 64)
  size : Nat
  deriving DecidableEq, Repr

/-- Constructor. query_utils.hpp:69-71. -/
def DynBitset.new (n : Nat) : DynBitset := ⟨List.replicate ((n + 63) / 64) 0#64, n⟩

/-- `set`. query_utils.hpp:78. -/
def DynBitset.set (b : DynBitset) (pos : Nat) : Option DynBitset :=
  match b.words[pos >>> 6]? with
  | none => none
  | some w => some { b with words := b.words.set (pos >>> 6) (w ||| (1#64 <<< (pos &&& 63))) }

/-- `get`. query_utils.hpp:86-88. -/
def DynBitset.get (b : DynBitset) (pos : Nat) : Option Bool :=
  match b.words[pos >>> 6]? with
  | none => none
  | some w => some (((w >>> (pos &&& 63)) &&& 1#64) != 0#64)

/-- `reset`. query_utils.hpp:103. -/
def DynBitset.reset (b : DynBitset) (pos : Nat) : Option DynBitset :=
  match b.words[pos / 64]? with
  | none => none
  | some w => some { b with words := b.words.set (pos / 64) (w &&& ~~~(1#64 <<< (pos % 64))) }

/-- `set_all`. query_utils.hpp:108. -/
def DynBitset.setAll (b : DynBitset) : DynBitset := { b with words := b.words.map fun _ => ~~~0#64 }

/-- `clear`. query_utils.hpp:113. -/
def DynBitset.clear (b : DynBitset) : DynBitset := { b with words := b.words.map fun _ => 0#64 }

/-- The mutating calls. -/
inductive BitCall where
  | set (p : Nat)
  | reset (p : Nat)
  | setAll
  | clear
  deriving DecidableEq, Repr

/-- One call. -/
def DynBitset.step (b : DynBitset) : BitCall → Option DynBitset
  | .set p => b.set p
  | .reset p => b.reset p
  | .setAll => some b.setAll
  | .clear => some b.clear

/-- A sequence of calls; `none` as soon as one is undefined. -/
def DynBitset.run (b : DynBitset) : List BitCall → Option DynBitset
  | [] => some b
  | c :: cs => (b.step c).bind fun b' => b'.run cs

/-- Number of trailing zeros of a word, scanning from bit `i` with `fuel` bits left; only called for non-zero
words (`__builtin_ctzll`). query_utils.hpp:28-44. -/
def ctzFrom (w : BitVec 64) : Nat → Nat → Nat
  | 0, i => i
  | fuel + 1, i => if w.getLsbD i then i else ctzFrom w fuel (i + 1)

/-- `count_trailing_zeros`. query_utils.hpp:28-44. -/
def ctz (w : BitVec 64) : Nat := ctzFrom w 64 0

/-- `class HierarchicalBitset`. query_utils.hpp:213-277. -/
structure HierBitset where
  data : List (BitVec 64)
  summary : List (BitVec 64)
  deriving DecidableEq, Repr

/-- Constructor. query_utils.hpp:227-230. -/
def HierBitset.new (n : Nat) : HierBitset :=
  ⟨List.replicate ((n + 63) / 64) 0#64, List.replicate (((n + 63) / 64 + 63) / 64) 0#64⟩

/-- `set`. query_utils.hpp:237-242. -/
def HierBitset.set (b : HierBitset) (pos : Nat) : Option HierBitset :=
  match b.data[pos / 512 * 8 + pos % 512 / 64]?, b.summary[pos / 512 / 64]? with
  | some w, some s => some
      ⟨b.data.set (pos / 512 * 8 + pos % 512 / 64) (w ||| (1#64 <<< (pos % 512 % 64))),
       b.summary.set (pos / 512 / 64) (s ||| (1#64 <<< (pos / 512 % 64)))⟩
  | _, _ => none

/-- `get`. query_utils.hpp:250-254. -/
def HierBitset.get (b : HierBitset) (pos : Nat) : Option Bool :=
  match b.data[pos / 512 * 8 + pos % 512 / 64]? with
  | none => none
  | some w => some ((w &&& (1#64 <<< (pos % 512 % 64))) != 0#64)

/-- The inner loop over the eight words of a block, from word `j` with `fuel` words left.
Outer `none` = out of bounds, inner `none` = the loop ended. query_utils.hpp:267-273. -/
def HierBitset.blockLoop (b : HierBitset) (block : Nat) : Nat → Nat → Option (Option Nat)
  | 0, _ => some none
  | fuel + 1, j =>
    match b.data[block * 8 + j]? with
    | none => none
    | some w => if w = 0#64 then b.blockLoop block fuel (j + 1)
      else some (some (block * 512 + j * 64 + ctz w))

/-- The loop over the summary words from index `i`; `none` in the inner option is the result `-1`.
Simplification: the result is not narrowed to `int`. query_utils.hpp:261-276. -/
def HierBitset.findLoop (b : HierBitset) : List (BitVec 64) → Nat → Option (Option Nat)
  | [], _ => some none
  | s :: ss, i =>
    if s = 0#64 then b.findLoop ss (i + 1)
    else
      match b.blockLoop (i * 64 + ctz s) 8 0 with
      | none => none
      | some (some r) => some (some r)
      | some none => b.findLoop ss (i + 1)

/-- `find_first_set`. query_utils.hpp:261-276. -/
def HierBitset.findFirst (b : HierBitset) : Option (Option Nat) := b.findLoop b.summary 0

/-- A sequence of `set` calls. -/
def HierBitset.sets (b : HierBitset) : List Nat → Option HierBitset
  | [] => some b
  | p :: ps => (b.set p).bind fun b' => b'.sets ps

/-- `EpochVisitedSet<TagType>` with tags of `bits` bits. query_utils.hpp:128-159. -/
structure EpochSet where
  tags : List Nat
  epoch : Nat
  deriving DecidableEq, Repr

/-- Constructor / `resize`. query_utils.hpp:141-146. -/
def EpochSet.new (n : Nat) : EpochSet := ⟨List.replicate n 0, 1⟩

/-- `clear`: `++epoch_` wraps at `2^bits`. query_utils.hpp:148-154. -/
def EpochSet.clear (bits : Nat) (s : EpochSet) : EpochSet :=
  let e := if s.epoch + 1 = 2 ^ bits then 0 else s.epoch + 1
  if e = 0 then ⟨s.tags.map fun _ => 0, 1⟩ else ⟨s.tags, e⟩

/-- `get`. query_utils.hpp:156. -/
def EpochSet.get (s : EpochSet) (id : Nat) : Option Bool := (s.tags[id]?).map fun t => t == s.epoch

/-- `set`. query_utils.hpp:158. -/
def EpochSet.set (s : EpochSet) (id : Nat) : Option EpochSet :=
  if id < s.tags.length then some { s with tags := s.tags.set id s.epoch } else none

/-- Calls on the visited set. -/
inductive EpochCall where
  | set (id : Nat)
  | clear
  | resize (n : Nat)
  deriving DecidableEq, Repr

/-- One call. -/
def EpochSet.step (bits : Nat) (s : EpochSet) : EpochCall → Option EpochSet
  | .set id => s.set id
  | .clear => some (s.clear bits)
  | .resize n => some (EpochSet.new n)

/-- A sequence of calls. -/
def EpochSet.run (bits : Nat) (s : EpochSet) : List EpochCall → Option EpochSet
  | [] => some s
  | c :: cs => (s.step bits c).bind fun s' => s'.run bits cs

end Alaya
