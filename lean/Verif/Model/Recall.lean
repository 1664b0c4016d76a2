import Mathlib.Data.Rat.Defs
import Mathlib.Data.List.Basic
import Mathlib.Data.List.Dedup
import Mathlib.Data.List.Sort

/-!
# Recall, exact neighbours and percentiles

python/src/alayalite/utils.py:77-92 (`calc_recall`, `calc_gt`), python/src/alayalite/bench/_metrics.py:28-55
(`percentiles`, `recall_at_k`), include/utils/evaluate.hpp:17-69 (`find_exact_gt`, `calc_recall`).

Simplifications.
* Ratios are exact; the code divides in float or double.  `none` stands for an exception (IndexError,
  ZeroDivisionError, ValueError), for reading outside an array (C++) and for a division by zero (C++, not a number).
* Distances are taken from an arbitrary linear order (so no NaN); how they are computed is not modelled here.
* The overload of `calc_recall` for a vector of vectors (evaluate.hpp:71-89) is the same loop and not modelled apart.
* A sort is any function that returns a sorted arrangement (`Argsort`): `np.argsort` and `std::sort` are not stable.
-/

namespace Alaya.Recall

variable {α : Type} [DecidableEq α]

/-- `len(set(r) & set(g))`. utils.py:82; _metrics.py:52-54 -/
def common (r g : List α) : Nat := (r.dedup.filter (fun x => decide (x ∈ g))).length

/-- The loop over the rows; `gt_data[i]` raises when there are too few. utils.py:81-82 -/
def pyCount : List (List α) → List (List α) → Option Nat
  | [], _ => some 0
  | _ :: _, [] => none
  | r :: rs, g :: gs => (pyCount rs gs).map (common r g + ·)

/-- `calc_recall(result, gt_data)` for a result of `col` columns. utils.py:77-83 -/
def pyRecall (res : List (List α)) (col : Nat) (gt : List (List α)) : Option ℚ :=
  match pyCount res gt with
  | none => none
  | some c => if res.length * col = 0 then none else some ((c : ℚ) / ((res.length * col : Nat) : ℚ))

/-- `l[:k]`. -/
def upTo {β : Type} (l : List β) (k : Int) : List β := if k < 0 then l.take ((l.length : Int) + k).toNat else l.take k.toNat

/-- `recall_at_k(predicted_ids, ground_truth_ids, k)`. _metrics.py:39-55 -/
def recallAtK (pred gt : List (List α)) (k : Int) : Option ℚ :=
  if pred.length ≠ gt.length then none
  else if pred.isEmpty then none
  else if k = 0 then none
  else some (((List.zipWith (fun p g => (common (upTo p k) (upTo g k) : ℚ) / (k : ℚ)) pred gt).sum) / (pred.length : ℚ))

/-- Arithmetic of `uint32_t`. -/
def u32 (n : Nat) : Nat := n % 4294967296

/-- The loop over `k` with its `break` (its order does not matter). evaluate.hpp:60-65 -/
def seek (x : α) (gt : Nat → α) (base : Nat) : Nat → Bool
  | 0 => false
  | g + 1 => if x = gt (u32 (base + g)) then true else seek x gt base g

/-- The loop over `j` and, within it, over `k`: how often `cnt` is increased for query `i`. evaluate.hpp:59-66 -/
def cppRow (res : Nat → α) (gt : Nat → α) (i g topk : Nat) : Nat → Nat
  | 0 => 0
  | j + 1 => cppRow res gt i g topk j + (if seek (res (u32 (i * topk + j))) gt (i * g) g then 1 else 0)

/-- The loop over `i`. evaluate.hpp:58-67 -/
def cppCount (res gt : Nat → α) (g topk : Nat) : Nat → Nat
  | 0 => 0
  | i + 1 => u32 (cppCount res gt g topk i + cppRow res gt i g topk topk)

/-- `calc_recall(res, gt, query_num, gt_dim, topk)` over arrays. evaluate.hpp:52-69 -/
def cppRecall (res gt : Nat → α) (queries g topk : Nat) : Option ℚ :=
  if u32 (queries * topk) = 0 then none else some ((cppCount res gt g topk queries : ℚ) / ((u32 (queries * topk) : Nat) : ℚ))

/-- Positions that sort the keys: every position once, keys ascending. -/
structure Argsort {D : Type} [LinearOrder D] (sort : List D → List Nat) : Prop where
  perm : ∀ l, (sort l).Perm (List.range l.length)
  sorted : ∀ l, (sort l).Pairwise (fun a b => ∀ x y, l[a]? = some x → l[b]? = some y → x ≤ y)

/-- Assigning a one-dimensional array to a row of `topk` numbers: lengths must agree, but a single number is spread over
the row. utils.py:90 -/
def assignRow (topk : Nat) : List Nat → Option (List Nat)
  | [x] => some (List.replicate topk x)
  | l => if l.length = topk then some l else none

/-- One row of `calc_gt`: `np.argsort(dists)[:topk]`. utils.py:89-90 -/
def pyGtRow {D : Type} (sort : List D → List Nat) (dists : List D) (topk : Nat) : Option (List Nat) :=
  assignRow topk ((sort dists).take topk)

/-- `calc_gt`: `dists i` the distances of query `i` to all items. utils.py:86-92 -/
def pyGt {D : Type} (sort : List D → List Nat) (dists : List (List D)) (topk : Nat) : Option (List (List Nat)) :=
  dists.mapM (pyGtRow sort · topk)

/-- `res[(i * topk) + j] = dists[j].first` for `j < topk`; reading beyond the candidates is undefined.
evaluate.hpp:44-46 -/
def firsts (l : List Nat) (topk : Nat) : Option (List Nat) := if l.length < topk then none else some (l.take topk)

/-- One query of `find_exact_gt`: the candidates that are not deleted, with their distances, sorted.
evaluate.hpp:31-46 -/
def cppGtRow {D : Type} (sort : List D → List Nat) (dist : Nat → D) (n : Nat) (deleted : Nat → Bool) (topk : Nat) :
    Option (List Nat) :=
  let cand := (List.range n).filter (fun j => !deleted j)
  firsts ((sort (cand.map dist)).filterMap (cand[·]?)) topk

/-- `find_exact_gt` over arrays of `qlen` and `dlen` numbers; rows one after the other, none when the input is refused.
evaluate.hpp:17-49 -/
def cppGt {D : Type} (sort : List D → List Nat) (dist : Nat → Nat → D) (qlen dlen dim : Nat) (deleted : Nat → Bool) (topk : Nat) :
    Option (List (List Nat)) :=
  if qlen = 0 ∨ dlen = 0 then some []
  else if dim = 0 then none
  else if qlen % dim ≠ 0 ∨ dlen % dim ≠ 0 then some []
  else (List.range (qlen / dim)).mapM (fun i => cppGtRow sort (dist i) (dlen / dim) deleted topk)

/-- `percentiles(values, (q,))[q]`, the values sorted. _metrics.py:28-36 -/
def percentile {D : Type} (sorted : List D) (q : Int) : Option D :=
  if sorted.isEmpty then none
  else sorted[(max 0 (min ((sorted.length : Int) - 1) (((sorted.length : Int) * q).tdiv 100))).toNat]?

end Alaya.Recall
