import Verif.Model.Filter
import Verif.Model.RocksStore
import Verif.Model.Bitsets

/-
`MetadataFilterExecutor` of /repo/include/utils/metadata_filter_matcher.hpp.
-/
namespace Alaya
open Spec

/-- `std::numeric_limits<double>::max()` as bits. -/
def dblMax : BitVec 64 := 0x7FEFFFFFFFFFFFFF#64
/-- `std::numeric_limits<double>::lowest()` as bits. -/
def dblLowest : BitVec 64 := 0xFFEFFFFFFFFFFFFF#64
/-- `int64_t` max / min as bits. -/
def intMax : BitVec 64 := 0x7FFFFFFFFFFFFFFF#64
def intMin : BitVec 64 := 0x8000000000000000#64

/-- `std::nextafter(x, y)` of the C standard on bit patterns: NaN in, NaN out; equal arguments give `y`; zero
steps to the smallest subnormal with the sign of `y`; otherwise one step of the magnitude bits. -/
def nextafter (x y : BitVec 64) : BitVec 64 :=
  if dblIsNaN x.toNat then x
  else if dblIsNaN y.toNat then y
  else if dblEq x.toNat y.toNat then y
  else if dblVal x.toNat = 0 then (if dblNeg y.toNat then 0x8000000000000001#64 else 1#64)
  else if (dblVal x.toNat < dblVal y.toNat) ↔ (0 < dblVal x.toNat) then x + 1#64
  else x - 1#64

/-- `std::unique` on adjacent elements. -/
def uniqueAdj : List Nat → List Nat
  | [] => []
  | [a] => [a]
  | a :: b :: rest => if a = b then uniqueAdj (b :: rest) else a :: uniqueAdj (b :: rest)

/-- The loop of the IN_SET case. metadata_filter_matcher.hpp:182-185. -/
def inSetIds (c : IdCfg) (kv : KV) (field : Bytes) : List MetaValue → Option (List Nat)
  | [] => some []
  | v :: vs =>
    match idsByFieldValue c kv field v with
    | none => none
    | some l => (inSetIds c kv field vs).map (l ++ ·)

/-- `lookup_indexed_ids`. Outer `none` = exception, inner `none` = `std::nullopt`.
metadata_filter_matcher.hpp:171-254. -/
def lookupIndexed (cfg : StoreCfg) (kv : KV) (cond : FilterCond) : Option (Option (List Nat)) :=
  if cond.field ∈ cfg.fields then
    match cond.op with
    | .eq => (idsByFieldValue cfg.id kv cond.field cond.value).map some
    | .inSet => (inSetIds cfg.id kv cond.field cond.values).map fun l =>
        some (uniqueAdj (l.mergeSort fun a b => decide (a ≤ b)))
    | .ge =>
      match cond.value with
      | .int v => (idsByIntRange cfg.id kv cond.field v intMax).map some
      | .double v => (idsByDoubleRange cfg.id kv cond.field v dblMax).map some
      | _ => some none
    | .gt =>
      match cond.value with
      | .int v => if v = intMax then some (some []) else
          (idsByIntRange cfg.id kv cond.field (v + 1#64) intMax).map some
      | .double v => (idsByDoubleRange cfg.id kv cond.field (nextafter v dblMax) dblMax).map some
      | _ => some none
    | .le =>
      match cond.value with
      | .int v => (idsByIntRange cfg.id kv cond.field intMin v).map some
      | .double v => (idsByDoubleRange cfg.id kv cond.field dblLowest v).map some
      | _ => some none
    | .lt =>
      match cond.value with
      | .int v => if v = intMin then some (some []) else
          (idsByIntRange cfg.id kv cond.field intMin (v - 1#64)).map some
      | .double v => (idsByDoubleRange cfg.id kv cond.field dblLowest (nextafter v dblLowest)).map some
      | _ => some none
    | _ => some none
  else some none

/-- The executor after construction; `fast` holds `indexed_ids_` and `allow_ids_` when
`has_index_fast_path_`. metadata_filter_matcher.hpp:295-303. -/
structure FilterExec where
  filter : Filter
  dataNum : Nat
  fast : Option (List Nat × DynBitset)

/-- `filter_.is_empty()`. metadata_filter.hpp:215. -/
def Filter.isEmpty : Filter → Bool
  | .mk _ conds subs => conds.isEmpty && subs.isEmpty

/-- `for (auto id : ids) bits.set(id)`. -/
def setAllOf (b : DynBitset) : List Nat → Option DynBitset
  | [] => some b
  | p :: ps => (b.set p).bind fun b' => setAllOf b' ps

/-- `for (auto id : ids) bits.reset(id)`. -/
def resetAllOf (b : DynBitset) : List Nat → Option DynBitset
  | [] => some b
  | p :: ps => (b.reset p).bind fun b' => resetAllOf b' ps

/-- Constructor with `build_index_fast_path`. metadata_filter_matcher.hpp:34-46, 260-276. -/
def FilterExec.new (cfg : StoreCfg) (s : Store) (f : Filter) (dataNum : Nat) : PR FilterExec :=
  match f with
  | .mk .and [cond] [] =>
    match lookupIndexed cfg s.kv cond with
    | none => .bad
    | some none => .ok ⟨f, dataNum, none⟩
    | some (some ids) =>
      match setAllOf (DynBitset.new dataNum) ids with
      | none => .ub
      | some b => .ok ⟨f, dataNum, some (ids, b)⟩
  | _ => .ok ⟨f, dataNum, none⟩

/-- Raw evaluation of one id (missing or empty value = not matched).
metadata_filter_matcher.hpp:63-67, 96-101, 278-283. -/
def rawMatch (cfg : StoreCfg) (s : Store) (f : Filter) (id : Nat) : PR Bool :=
  if s.rawValue cfg id = [] then .ok false else f.evalRaw (s.rawValue cfg id)

/-- Decision for one id in the loops over `ids`. metadata_filter_matcher.hpp:87-109. -/
def FilterExec.test (cfg : StoreCfg) (s : Store) (e : FilterExec) (id : Nat) : PR Bool :=
  match e.fast with
  | some p => match p.2.get id with | none => .ub | some t => .ok t
  | none => rawMatch cfg s e.filter id

/-- `match`. metadata_filter_matcher.hpp:54-68. -/
def FilterExec.match (cfg : StoreCfg) (s : Store) (e : FilterExec) (id : Nat) : PR Bool :=
  if e.filter.isEmpty then .ok true else e.test cfg s id

/-- Loop of `build_blocked_bitset(ids)` from position `i`; result: blocked bits and `matched_count_`.
metadata_filter_matcher.hpp:87-109. -/
def blockIdsLoop (p : Nat → PR Bool) : List Nat → Nat → DynBitset → Nat → PR (DynBitset × Nat)
  | [], _, b, cnt => .ok (b, cnt)
  | id :: ids, i, b, cnt =>
    (p id).bind fun t =>
      if t then blockIdsLoop p ids (i + 1) b (cnt + 1)
      else match b.set i with
        | none => .ub
        | some b' => blockIdsLoop p ids (i + 1) b' cnt

/-- `build_blocked_bitset(ids)`. metadata_filter_matcher.hpp:78-112. -/
def FilterExec.blockIds (cfg : StoreCfg) (s : Store) (e : FilterExec) (ids : List Nat) :
    PR (DynBitset × Nat) :=
  if e.filter.isEmpty then .ok (DynBitset.new ids.length, ids.length)
  else blockIdsLoop (e.test cfg s) ids 0 (DynBitset.new ids.length) 0

/-- Copying of one batch result into the full bitset. metadata_filter_matcher.hpp:155-159. -/
def copyBlocked (part : DynBitset) : List Nat → Nat → DynBitset → Option DynBitset
  | [], _, b => some b
  | id :: ids, i, b =>
    match part.get i with
    | none => none
    | some true => (b.set id).bind fun b' => copyBlocked part ids (i + 1) b'
    | some false => copyBlocked part ids (i + 1) b

/-- `kBatchSize`. metadata_filter_matcher.hpp:143. -/
def kBatchSize : Nat := 1024

theorem kBatchSize_pos : 0 < kBatchSize := by decide

/-- The batch loop of `build_blocked_bitset()`. metadata_filter_matcher.hpp:143-160. -/
def FilterExec.batchLoop (cfg : StoreCfg) (s : Store) (e : FilterExec) (start : Nat) (b : DynBitset)
    (cnt : Nat) : PR (DynBitset × Nat) :=
  if _h : start < e.dataNum then
    let ids := List.range' start (min e.dataNum (start + kBatchSize) - start)
    (e.blockIds cfg s ids).bind fun r =>
      match copyBlocked r.1 ids 0 b with
      | none => .ub
      | some b' => FilterExec.batchLoop cfg s e (start + kBatchSize) b' (cnt + r.2)
  else .ok (b, cnt)
termination_by e.dataNum - start
decreasing_by have := kBatchSize_pos; omega

/-- `build_blocked_bitset()`. metadata_filter_matcher.hpp:114-163. -/
def FilterExec.blockAll (cfg : StoreCfg) (s : Store) (e : FilterExec) : PR (DynBitset × Nat) :=
  if e.filter.isEmpty then .ok (DynBitset.new e.dataNum, e.dataNum)
  else
    match e.fast with
    | some p =>
      match resetAllOf (DynBitset.new e.dataNum).setAll p.1 with
      | none => .ub
      | some b => .ok (b, p.1.length)
    | none => e.batchLoop cfg s 0 (DynBitset.new e.dataNum) 0

end Alaya
