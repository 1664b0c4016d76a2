import Verif.Model.ParFor

/-
Product quantisation. /repo/include/index/graph/diskann/pq_table.hpp:71-681 (class `PQTable`).

Arrays are flat lists, as in the code; a read or write outside of one is `none`.  The arithmetic is a parameter (`Ar`), so that statements
without further hypotheses hold for IEEE floats in any order of the additions; random numbers are arbitrary.  Sizes are 64-bit numbers
where the code multiplies or adds them without a check (`u64`).  Simplifications: null pointers and failing streams are left out; a file is
its content; the distance function has been set (`ensure_l2`); `chunk_dim_` is not cut to 32 bits; the arrays given by the caller and
those allocated for them fit into memory.
-/
namespace Alaya.PQ

/-- Arithmetic on floats. -/
structure Ar (F : Type) where
  zero : F
  /-- `std::numeric_limits<float>::max()` -/
  big : F
  add : F → F → F
  sub : F → F → F
  lt : F → F → Bool
  /-- `l2_` -/
  l2 : List F → List F → F
  /-- division by the number of vectors -/
  divn : F → Nat → F
  /-- the mean of the members of a cluster in one coordinate, in double, rounded. pq_table.hpp:586-611 -/
  avg : List F → F

def u64 (x : Nat) : Nat := x % 2 ^ 64

/-- `n` entries from `off` on. -/
def slice {α : Type} (l : List α) (off n : Nat) : Option (List α) := if off + n ≤ l.length then some ((l.drop off).take n) else none

/-- Overwriting entries. -/
def splice {α : Type} (l : List α) (off : Nat) (r : List α) : Option (List α) :=
  if off + r.length ≤ l.length then some (l.take off ++ (r ++ l.drop (off + r.length))) else none

/-- `for i in …: out.push_back(f(i))` with partial `f`. -/
def each {α β : Type} (f : α → Option β) : List α → Option (List β)
  | [] => some []
  | a :: as =>
    match f a with
    | none => none
    | some b =>
      match each f as with
      | none => none
      | some bs => some (b :: bs)

/-- A loop over a list with a partial body. -/
def loop {α σ : Type} (f : σ → α → Option σ) : List α → σ → Option σ
  | [], s => some s
  | a :: as, s =>
    match f s a with
    | none => none
    | some s' => loop f as s'

/-- The members. pq_table.hpp:673-680 -/
structure Table (F : Type) where
  dim : Nat
  nc : Nat
  cd : Nat
  points : Nat
  gc : List F
  cb : List F
  codes : List Nat
  sym : List F
  deriving DecidableEq, Repr

def Table.empty {F : Type} : Table F := ⟨0, 0, 0, 0, [], [], [], []⟩

/-- Centroid `k` of a block of 256. -/
def cent {F : Type} (cd : Nat) (block : List F) (k : Nat) : Option (List F) := slice block (k * cd) cd

/-- `argmin_centroid`. pq_table.hpp:618-630 -/
def argmin {F : Type} (A : Ar F) (cd : Nat) (p block : List F) : Option Nat :=
  (loop (fun (b : F × Nat) k => (cent cd block k).map (fun c => if A.lt (A.l2 p c) b.1 then (A.l2 p c, k) else b)) (List.range 256) (A.big, 0)).map Prod.snd

/-- The block of chunk `c`. pq_table.hpp:265, 513, 537-538 -/
def Table.block {F : Type} (t : Table F) (c : Nat) : Option (List F) := slice t.cb (c * 256 * t.cd) (256 * t.cd)

/-- `build_residual`. pq_table.hpp:517-521 -/
def Table.residual {F : Type} (A : Ar F) (t : Table F) (v : List F) : Option (List F) :=
  each (fun d => match v[d]?, t.gc[d]? with
    | some x, some g => some (A.sub x g)
    | _, _ => none) (List.range t.dim)

/-- `nearest_centroid`. pq_table.hpp:512-515 -/
def Table.nearest {F : Type} (A : Ar F) (t : Table F) (r : List F) (c : Nat) : Option Nat :=
  match slice r (c * t.cd) t.cd, t.block c with
  | some p, some b => argmin A t.cd p b
  | _, _ => none

/-- `encode_to_code` of a trained table, `encode_residual_to_row`. pq_table.hpp:240-242, 523-527 -/
def Table.code {F : Type} (A : Ar F) (t : Table F) (v : List F) : Option (List Nat) :=
  match t.residual A v with
  | none => none
  | some r => each (t.nearest A r) (List.range t.nc)

/-- `build_symmetric_distance_table` of a trained table. pq_table.hpp:529-548 -/
def Table.symTable {F : Type} (A : Ar F) (t : Table F) : Option (List F) :=
  (each (fun c => (t.block c).bind (fun b =>
    (each (fun l => each (fun r =>
      match cent t.cd b l, cent t.cd b r with
      | some x, some y => some (A.l2 x y)
      | _, _ => none) (List.range 256)) (List.range 256)).map List.flatten)) (List.range t.nc)).map List.flatten

/-! ### Training -/

/-- The mean of all vectors. pq_table.hpp:94-104 -/
def mean {F : Type} (A : Ar F) (data : List F) (n dim : Nat) : Option (List F) :=
  each (fun d => (loop (fun (a : F) i => (data[i * dim + d]?).map (A.add a)) (List.range n) A.zero).map (A.divn · n)) (List.range dim)

/-- Residuals of all vectors. pq_table.hpp:106-114 -/
def residuals {F : Type} (A : Ar F) (data gc : List F) (n dim : Nat) : Option (List F) :=
  (each (fun i => each (fun d => match data[i * dim + d]?, gc[d]? with
    | some x, some g => some (A.sub x g)
    | _, _ => none) (List.range dim)) (List.range n)).map List.flatten

/-- The part of chunk `c`. pq_table.hpp:133-137 -/
def chunkData {F : Type} (res : List F) (n dim cd c : Nat) : Option (List F) :=
  (each (fun i => slice res (i * dim + c * cd) cd) (List.range n)).map List.flatten

/-- One iteration; `pick` replaces the random numbers. pq_table.hpp:581-612 -/
def lloyd {F : Type} (A : Ar F) (cd n : Nat) (data : List F) (pick : Nat → Nat) (cents : List F) : Option (List F) :=
  match each (fun i => (slice data (i * cd) cd).bind (fun p => argmin A cd p cents)) (List.range n) with
  | none => none
  | some assign =>
    (each (fun k =>
      if (List.range n).filter (fun i => assign[i]? = some k) = [] then slice data (pick k % n * cd) cd
      else each (fun d => (each (fun i => data[i * cd + d]?) ((List.range n).filter (fun i => assign[i]? = some k))).map A.avg) (List.range cd))
      (List.range 256)).map List.flatten

/-- The iterations. pq_table.hpp:580 -/
def lloyds {F : Type} (A : Ar F) (cd n : Nat) (data : List F) (pick : Nat → Nat → Nat) : Nat → List F → Option (List F)
  | 0, cents => some cents
  | it + 1, cents =>
    match lloyd A cd n data (pick it) cents with
    | none => none
    | some c' => lloyds A cd n data pick it c'

/-- `train_chunk`; the vectors that `kmeanspp_init` chooses are arbitrary (`seedPick`). pq_table.hpp:557-614, 633-671 -/
def trainChunk {F : Type} (A : Ar F) (cd n iters : Nat) (data : List F) (seedPick : Nat → Nat) (pick : Nat → Nat → Nat) : Option (List F) :=
  if n ≤ 256 then (each (fun k => slice data ((if k < n then k else n - 1) * cd) cd) (List.range 256)).map List.flatten
  else
    match each (fun k => slice data (seedPick k % n * cd) cd) (List.range 256) with
    | none => none
    | some rows => lloyds A cd n data pick iters rows.flatten

/-- What `train` does before and after its parallel part, which yields `blocks` (one entry per chunk). `some none` = exception.
pq_table.hpp:78-116 -/
def Table.train {F : Type} (A : Ar F) (t : Table F) (data : List F) (n dim nc : Nat) (blocks : List F → List (Option (List F))) :
    Option (Option (Table F)) :=
  if n = 0 ∨ dim = 0 ∨ nc = 0 then some none
  else if dim % nc ≠ 0 then some none
  else
    match mean A data n dim with
    | none => none
    | some gc =>
      match residuals A data gc n dim with
      | none => none
      | some res =>
        match each id (blocks res) with
        | none => none
        | some bs => some (some { t with dim := dim, nc := nc, cd := dim / nc, gc := gc, cb := bs.flatten })

/-- What is computed for one chunk. pq_table.hpp:133-139 -/
def trainPart {F : Type} (A : Ar F) (n dim nc iters : Nat) (seedPick : Nat → Nat → Nat) (pick : Nat → Nat → Nat → Nat) (res : List F) (c : Nat) :
    Option (List F) :=
  match chunkData res n dim (dim / nc) c with
  | none => none
  | some d => trainChunk A (dim / nc) n iters d (seedPick c) (pick c)

/-! ### Encoding -/

/-- `encode`; `rows` is what the workers leave. pq_table.hpp:164-210 -/
def Table.encode {F : Type} (A : Ar F) (t : Table F) (n : Nat) (rows : List (Option (List Nat))) : Option (Option (Table F)) :=
  if t.cb = [] then some none
  else if n = 0 then some none
  else
    match each id rows with
    | none => none
    | some rs =>
      match t.symTable A with
      | none => none
      | some sym => some (some { t with points := n, codes := rs.flatten, sym := sym })

/-- What is written for vector `i`. pq_table.hpp:190-193 -/
def encodePart {F : Type} (A : Ar F) (t : Table F) (data : List F) (i : Nat) : Option (List Nat) :=
  (slice data (i * t.dim) t.dim).bind (t.code A)

/-- `codes_.resize(n, 0)`. -/
def resize (l : List Nat) (n : Nat) : List Nat := l.take n ++ List.replicate (n - l.length) 0

/-- `encode_one`. pq_table.hpp:214-230 -/
def Table.encodeOne {F : Type} (A : Ar F) (t : Table F) (v : List F) (id : Nat) : Option (Option (Table F)) :=
  if t.cb = [] then some none
  else
    let t1 := if t.points < u64 (id + 1) then { t with codes := resize t.codes (u64 (u64 (id + 1) * t.nc)), points := u64 (id + 1) } else t
    match t.code A v with
    | none => none
    | some row =>
      match splice t1.codes (u64 (id * t.nc)) row with
      | none => none
      | some codes => some (some { t1 with codes := codes })

/-! ### Distances -/

/-- `preprocess_query`. pq_table.hpp:260-270 -/
def Table.query {F : Type} (A : Ar F) (t : Table F) (q : List F) : Option (List F) :=
  match t.residual A q with
  | none => none
  | some r =>
    (each (fun c => match slice r (c * t.cd) t.cd, t.block c with
      | some p, some b => each (fun k => (cent t.cd b k).map (A.l2 p)) (List.range 256)
      | _, _ => none) (List.range t.nc)).map List.flatten

/-- The codes of a point. pq_table.hpp:280, 321, 340, 354 -/
def Table.row {F : Type} (t : Table F) (id : Nat) : Option (List Nat) := slice t.codes (u64 (id * t.nc)) t.nc

/-- `pq_distance`. pq_table.hpp:279-286 -/
def Table.dist {F : Type} (A : Ar F) (t : Table F) (table : List F) (id : Nat) : Option F :=
  match t.row id with
  | none => none
  | some row => loop (fun a c => match row[c]? with
    | none => none
    | some b => (table[c * 256 + b]?).map (A.add a)) (List.range t.nc) A.zero

/-- One tile of `pq_distance_batch`: copy the rows, then add chunk by chunk. pq_table.hpp:315-331 -/
def Table.tile {F : Type} (A : Ar F) (t : Table F) (table : List F) (ids : List Nat) : Option (List F) :=
  match each (fun id => t.row id) ids with
  | none => none
  | some rows =>
    if rows.flatten.length ≤ 96 * 64 then
      loop (fun (o : List F) c => each (fun i => match o[i]?, rows.flatten[i * t.nc + c]? with
        | some x, some b => (table[c * 256 + b]?).map (A.add x)
        | _, _ => none) (List.range ids.length)) (List.range t.nc) (List.replicate ids.length A.zero)
    else none

/-- The loop over the tiles; `fuel` at least the number of ids. pq_table.hpp:314-332 -/
def Table.tiles {F : Type} (A : Ar F) (t : Table F) (table : List F) : Nat → List Nat → Option (List F)
  | _, [] => some []
  | 0, _ => none
  | fuel + 1, ids =>
    match t.tile A table (ids.take 96) with
    | none => none
    | some o =>
      match t.tiles A table fuel (ids.drop 96) with
      | none => none
      | some os => some (o ++ os)

/-- `pq_distance_batch`. pq_table.hpp:300-333 -/
def Table.batch {F : Type} (A : Ar F) (t : Table F) (table : List F) (ids : List Nat) : Option (List F) :=
  if 64 < t.nc then each (t.dist A table) ids else t.tiles A table ids.length ids

/-- `pq_symmetric_distance` from a code to a stored point. pq_table.hpp:344-361 -/
def Table.symFrom {F : Type} (A : Ar F) (t : Table F) (lhs : List Nat) (rhs : Nat) : Option (Option F) :=
  if t.points ≤ rhs then some none
  else if t.sym = [] then some none
  else
    match t.row rhs with
    | none => none
    | some row =>
      (loop (fun a c => match lhs[c]?, row[c]? with
        | some x, some y => (t.sym[c * 65536 + x * 256 + y]?).map (A.add a)
        | _, _ => none) (List.range t.nc) A.zero).map some

/-- `pq_symmetric_distance` of two stored points. pq_table.hpp:336-341 -/
def Table.symDist {F : Type} (A : Ar F) (t : Table F) (lhs rhs : Nat) : Option (Option F) :=
  if t.points ≤ lhs ∨ t.points ≤ rhs then some none
  else
    match t.row lhs with
    | none => none
    | some row => t.symFrom A row rhs

/-! ### Files -/

/-- How a float is stored. -/
structure Codec (F : Type) where
  enc : F → List Nat
  dec : List Nat → F

/-- `pq_pivots.bin`, `pq_compressed.bin`. `none` = exception. pq_table.hpp:370-398 -/
def Table.save {F : Type} (E : Codec F) (t : Table F) : Option (List Nat × List Nat) :=
  if t.cb = [] then none else some ((t.gc ++ t.cb).flatMap E.enc, t.codes)

/-- Reading `n` floats from `off` on. -/
def decodeFloats {F : Type} (E : Codec F) (b : List Nat) (off n : Nat) : Option (List F) :=
  each (fun i => (slice b ((off + i) * 4) 4).map E.dec) (List.range n)

/-- `load`: what the object is afterwards and whether the call returned (otherwise it threw). pq_table.hpp:405-467 -/
def Table.load {F : Type} (A : Ar F) (E : Codec F) (t : Table F) (pivots codes : List Nat) (n dim nc : Nat) : Option (Table F × Bool) :=
  if n = 0 ∨ dim = 0 ∨ nc = 0 ∨ dim % nc ≠ 0 then some (t, false)
  else
    let t1 := { t with dim := dim, nc := nc, cd := dim / nc, points := n }
    if pivots.length ≠ u64 ((dim + nc * 256 * (dim / nc)) * 4) then some (t1, false)
    else
      match decodeFloats E pivots 0 dim, decodeFloats E pivots dim (nc * 256 * (dim / nc)) with
      | some gc, some cb =>
        let t2 := { t1 with gc := gc, cb := cb }
        if codes.length ≠ u64 (n * nc) then some (t2, false)
        else
          match t2.symTable A with
          | none => none
          | some sym => some ({ t2 with codes := codes, sym := sym }, true)
      | _, _ => none

/-- `from_codebook`; `some none` = exception. pq_table.hpp:470-492 -/
def Table.fromCodebook {F : Type} (A : Ar F) (dim nc : Nat) (gc cb : List F) : Option (Option (Table F)) :=
  if dim = 0 ∨ nc = 0 ∨ dim % nc ≠ 0 then some none
  else if gc.length ≠ dim then some none
  else if cb.length ≠ nc * 256 * (dim / nc) then some none
  else
    let t : Table F := ⟨dim, nc, dim / nc, 0, gc, cb, [], []⟩
    match t.symTable A with
    | none => none
    | some sym => some (some { t with sym := sym })

end Alaya.PQ
