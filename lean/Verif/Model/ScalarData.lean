import Verif.Model.Bytes

/-
/repo/include/utils/scalar_data.hpp: binary form of a stored record.

The C++ parsers carry `(data, size, offset)` and signal failure by `offset = size + 1`; once in that state
every helper fails again.  Here a parser works on the remaining suffix `data[offset..]` and failure is a
separate outcome, so `offset > size` is `PR.bad`.
-/
namespace Alaya

/-- `MetadataValue = std::variant<int64_t, double, std::string, bool>` (scalar_data.hpp:21);
`int64_t` and `double` by bit pattern. -/
inductive MetaValue where
  | int (bits : BitVec 64)
  | double (bits : BitVec 64)
  | string (s : Bytes)
  | bool (b : Bool)
  deriving DecidableEq, Repr

/-- `MetadataMap` (scalar_data.hpp:22) as association list in iteration order. -/
abbrev MetaMap := List (Bytes × MetaValue)

/-- `map.find(key)`. -/
def MetaMap.get (m : MetaMap) (k : Bytes) : Option MetaValue :=
  match m with
  | [] => none
  | (k', v) :: rest => if k' = k then some v else MetaMap.get rest k

/-- `map[key] = v`. -/
def MetaMap.set (m : MetaMap) (k : Bytes) (v : MetaValue) : MetaMap :=
  match m with
  | [] => [(k, v)]
  | (k', v') :: rest => if k' = k then (k', v) :: rest else (k', v') :: MetaMap.set rest k v

/-- `map.emplace(key, v)`: keeps an existing entry. -/
def MetaMap.emplace (m : MetaMap) (k : Bytes) (v : MetaValue) : MetaMap :=
  match MetaMap.get m k with
  | some _ => m
  | none => m ++ [(k, v)]

/-- `struct ScalarData`. scalar_data.hpp:30-33. -/
structure ScalarData where
  itemId : Bytes
  document : Bytes
  metadata : MetaMap
  deriving DecidableEq, Repr

/-- Parser result: value, "offset > size" (malformed), or undefined behaviour (a `bool` object whose
byte is neither 0 nor 1). -/
inductive PR (α : Type) where
  | ok (a : α)
  | bad
  | ub
  deriving DecidableEq, Repr

/-- Sequencing. -/
def PR.bind {α β : Type} (x : PR α) (f : α → PR β) : PR β :=
  match x with
  | .ok a => f a
  | .bad => .bad
  | .ub => .ub

/-- `serialize_string`: the length is narrowed to `uint32_t`. scalar_data.hpp:205-210. -/
def serString (s : Bytes) : Bytes := leBytes 4 s.length ++ s

/-- `serialize_value`. scalar_data.hpp:303-319. -/
def serValue : MetaValue → Bytes
  | .int b => 0 :: leBytes 8 b.toNat
  | .double b => 1 :: leBytes 8 b.toNat
  | .string s => 2 :: serString s
  | .bool b => [3, if b then 1 else 0]

/-- Entries of `serialize_metadata`. scalar_data.hpp:297-300. -/
def serEntries : MetaMap → Bytes
  | [] => []
  | (k, v) :: rest => serString k ++ serValue v ++ serEntries rest

/-- `serialize_metadata`: the count is narrowed to `uint32_t`. scalar_data.hpp:292-301. -/
def serMetadata (m : MetaMap) : Bytes := leBytes 4 m.length ++ serEntries m

/-- `ScalarData::serialize`. scalar_data.hpp:44-55. -/
def ScalarData.serialize (r : ScalarData) : Bytes :=
  serString r.itemId ++ serString r.document ++ serMetadata r.metadata

/-- Read a `uint32_t`. -/
def desU32 (bs : Bytes) : PR (Nat × Bytes) :=
  match splitN 4 bs with
  | none => .bad
  | some (l, rest) => .ok (leNat l, rest)

/-- Bounds-checked `deserialize_string(data, size, offset)`. scalar_data.hpp:221-236. -/
def desString (bs : Bytes) : PR (Bytes × Bytes) :=
  match splitN 4 bs with
  | none => .bad
  | some (l, rest) =>
    match splitN (leNat l) rest with
    | none => .bad
    | some r => .ok r

/-- Bounds-checked `deserialize_value(data, size, offset)`. scalar_data.hpp:390-435.
Reading a `bool` from a byte other than 0/1 is undefined behaviour. -/
def desValue (bs : Bytes) : PR (MetaValue × Bytes) :=
  match bs with
  | [] => .bad
  | t :: rest =>
    if t = 0 then
      match splitN 8 rest with
      | none => .bad
      | some (v, r) => .ok (.int (BitVec.ofNat 64 (leNat v)), r)
    else if t = 1 then
      match splitN 8 rest with
      | none => .bad
      | some (v, r) => .ok (.double (BitVec.ofNat 64 (leNat v)), r)
    else if t = 2 then
      (desString rest).bind fun (s, r) => .ok (.string s, r)
    else if t = 3 then
      match rest with
      | [] => .bad
      | b :: r => if b = 0 then .ok (.bool false, r) else if b = 1 then .ok (.bool true, r) else .ub
    else .bad

/-- Loop of `deserialize_metadata(data, size, offset)`: `result[key] = value` (last one wins).
scalar_data.hpp:346-356. -/
def desEntries : Nat → MetaMap → Bytes → PR (MetaMap × Bytes)
  | 0, acc, bs => .ok (acc, bs)
  | n + 1, acc, bs =>
    (desString bs).bind fun (k, r1) =>
    (desValue r1).bind fun (v, r2) =>
    desEntries n (acc.set k v) r2

/-- `deserialize_metadata`. scalar_data.hpp:335-358. -/
def desMetadata (bs : Bytes) : PR (MetaMap × Bytes) :=
  (desU32 bs).bind fun (n, rest) => desEntries n [] rest

/-- `ScalarData::deserialize`; `.bad` = exception. Trailing bytes are accepted.
scalar_data.hpp:63-80. -/
def ScalarData.deserialize (data : Bytes) : PR ScalarData :=
  if data = [] then .bad
  else
    (desString data).bind fun (i, r1) =>
    (desString r1).bind fun (d, r2) =>
    (desMetadata r2).bind fun (m, _) =>
    .ok ⟨i, d, m⟩

/-- `skip_string`. scalar_data.hpp:238-251. -/
def skipString (bs : Bytes) : PR Bytes :=
  match splitN 4 bs with
  | none => .bad
  | some (l, rest) =>
    if rest.length < leNat l then .bad else .ok (rest.drop (leNat l))

/-- `skip_value`. scalar_data.hpp:253-290. -/
def skipValue (bs : Bytes) : PR Bytes :=
  match bs with
  | [] => .bad
  | t :: rest =>
    if t = 0 then (if rest.length < 8 then .bad else .ok (rest.drop 8))
    else if t = 1 then (if rest.length < 8 then .bad else .ok (rest.drop 8))
    else if t = 2 then skipString rest
    else if t = 3 then (if rest.length < 1 then .bad else .ok (rest.drop 1))
    else .bad

/-- Loop of `deserialize_selected_metadata`; `req` is the (duplicate free) wanted-field set.  A malformed
entry makes the whole result empty; the loop also stops at the end of the buffer and when all wanted
fields were found. scalar_data.hpp:110-131. -/
def selLoop (req : List Bytes) : Nat → MetaMap → Bytes → PR MetaMap
  | 0, acc, _ => .ok acc
  | n + 1, acc, bs =>
    if bs = [] then .ok acc
    else
      match desString bs with
      | .bad => .ok []
      | .ub => .ub
      | .ok (k, r1) =>
        if k ∈ req then
          match desValue r1 with
          | .bad => .ok []
          | .ub => .ub
          | .ok (v, r2) =>
            let acc' := acc.emplace k v
            if acc'.length = req.length then .ok acc' else selLoop req n acc' r2
        else
          match skipValue r1 with
          | .bad => .ok []
          | .ub => .ub
          | .ok r2 => selLoop req n acc r2

/-- `deserialize_selected_metadata`. A failed `skip_string` leaves `offset = size + 1`, which makes the
count check fail and returns the empty map. scalar_data.hpp:89-133. -/
def desSelected (data : Bytes) (req : List Bytes) : PR MetaMap :=
  if req = [] ∨ data = [] then .ok []
  else
    match (skipString data).bind skipString with
    | .bad => .ok []
    | .ub => .ub
    | .ok r2 =>
      match splitN 4 r2 with
      | none => .ok []
      | some (c, rest) => selLoop req (leNat c) [] rest

/-- Loop of `deserialize_single_metadata_value`. scalar_data.hpp:155-173. -/
def singleLoop (field : Bytes) : Nat → Bytes → PR (Option MetaValue)
  | 0, _ => .ok none
  | n + 1, bs =>
    if bs = [] then .ok none
    else
      match desString bs with
      | .bad => .ok none
      | .ub => .ub
      | .ok (k, r1) =>
        if k = field then
          match desValue r1 with
          | .bad => .ok none
          | .ub => .ub
          | .ok (v, _) => .ok (some v)
        else
          match skipValue r1 with
          | .bad => .ok none
          | .ub => .ub
          | .ok r2 => singleLoop field n r2

/-- `deserialize_single_metadata_value`. scalar_data.hpp:135-176. -/
def desSingle (data : Bytes) (field : Bytes) : PR (Option MetaValue) :=
  if field = [] ∨ data = [] then .ok none
  else
    match (skipString data).bind skipString with
    | .bad => .ok none
    | .ub => .ub
    | .ok r2 =>
      match splitN 4 r2 with
      | none => .ok none
      | some (c, rest) => singleLoop field (leNat c) rest

/-- Payload size of a value as counted by `serialized_size()`. scalar_data.hpp:190-198. -/
def MetaValue.payloadSize : MetaValue → Nat
  | .int _ => 8
  | .double _ => 8
  | .string s => 4 + s.length
  | .bool _ => 1

/-- `serialized_size()`. scalar_data.hpp:182-202. -/
def ScalarData.serializedSize (r : ScalarData) : Nat :=
  (4 + r.itemId.length) + (4 + r.document.length) + 4 +
    (r.metadata.map fun e => 4 + e.1.length + 1 + e.2.payloadSize).sum

end Alaya
