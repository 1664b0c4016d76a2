import Verif.Model.Pools

/-
`occlude_list` and `prune_neighbors`. /repo/include/index/graph/vamana/robust_prune.hpp:142-209.

The float arithmetic is a parameter: any type with any comparison, and any update of an occlusion factor (the quotient of
distances, the distance function and `std::max` are inside `upd`).  So everything proved without further hypotheses holds
for IEEE floats including NaN and for non-metric distance functions.
-/
namespace Alaya.Pools

structure Arith (F : Type) where
  gt : F → F → Bool
  le : F → F → Bool
  zero : F
  one : F
  /-- `std::numeric_limits<float>::max()` -/
  big : F
  /-- `cur_alpha *= 1.2f` -/
  next : F → F
  /-- new factor of candidate `j` after `i` was selected. robust_prune.hpp:175-177 -/
  upd : F → Nbr → Nbr → F

/-- The update of the later candidates after `n` was selected. robust_prune.hpp:170-178. -/
def occludeRest {F : Type} (A : Arith F) (alpha : F) (n : Nbr) (rest : List (Nbr × F)) : List (Nbr × F) :=
  rest.map (fun p => if A.gt p.2 alpha then p else (p.1, A.upd p.2 p.1 n))

/-- One pass over the pool (entries with their occlusion factors), `fuel` at least its length. robust_prune.hpp:161-179. -/
def sweep {F : Type} (A : Arith F) (loc : Nat) (alpha cur : F) (degree : Nat) :
    Nat → List (Nbr × F) → List Nat → List (Nbr × F) × List Nat
  | 0, pool, res => (pool, res)
  | _ + 1, [], res => ([], res)
  | fuel + 1, (n, f) :: rest, res =>
    if res.length < degree then
      if A.gt f cur then
        let r := sweep A loc alpha cur degree fuel rest res
        ((n, f) :: r.1, r.2)
      else
        let r := sweep A loc alpha cur degree fuel (occludeRest A alpha n rest) (if n.id = loc then res else res ++ [n.id])
        ((n, A.big) :: r.1, r.2)
    else ((n, f) :: rest, res)

/-- The rounds with growing `cur_alpha`; `none` = not finished after `fuel` rounds. robust_prune.hpp:159-181. -/
def rounds {F : Type} (A : Arith F) (loc : Nat) (alpha : F) (degree : Nat) :
    Nat → F → List (Nbr × F) → List Nat → Option (List Nat)
  | 0, cur, _, res => if A.le cur alpha && decide (res.length < degree) then none else some res
  | fuel + 1, cur, pool, res =>
    if A.le cur alpha && decide (res.length < degree) then
      let r := sweep A loc alpha cur degree pool.length pool res
      rounds A loc alpha degree fuel (A.next cur) r.1 r.2
    else some res

/-- `occlude_list` with an empty result. robust_prune.hpp:142-182. -/
def occludeList {F : Type} (A : Arith F) (loc : Nat) (pool : List Nbr) (alpha : F) (degree maxc fuel : Nat) : Option (List Nat) :=
  if pool = [] then some []
  else rounds A loc alpha degree fuel A.one ((pool.take maxc).map (fun n => (n, A.zero))) []

/-- `std::sort(pool.begin(), pool.end())`; entries equal under `operator<` have the same id and distance. -/
def sortInsert (x : Nbr) : List Nbr → List Nbr
  | [] => [x]
  | y :: ys => if y.lt x then y :: sortInsert x ys else x :: y :: ys

def sortPool : List Nbr → List Nbr
  | [] => []
  | x :: xs => sortInsert x (sortPool xs)

/-- `prune_neighbors`. robust_prune.hpp:187-209. -/
def prune {F : Type} (A : Arith F) (loc : Nat) (pool : List Nbr) (alpha : F) (range maxc fuel : Nat) : Option (List Nat) :=
  if pool = [] then some [] else occludeList A loc (sortPool pool) alpha range maxc fuel

end Alaya.Pools
