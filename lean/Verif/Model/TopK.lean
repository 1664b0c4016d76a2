/-
Bounded selection with a heap from the C++ standard library.
/repo/include/executor/jobs/graph_search_job.hpp:260-347 (`rerank`, twice),
/repo/include/index/disk/disk_flat_searcher.hpp:177-200 (Flat search),
/repo/python/include/materialized_view.hpp:486-520 (`insert_candidate`, `sort_candidates`).
The three copies make the same decisions, so one definition is used for them.

Simplification: the heap functions of the standard library are represented by their contract, i.e. by any functions that
satisfy `StdHeap`; distances are integers (the code only compares them; NaN is excluded).
-/
namespace Alaya.TopK

/-- A candidate: id or label, and distance. -/
structure Hit where
  label : Nat
  dist : Int
  deriving DecidableEq, Repr

/-- `rerank_candidate_less`, `candidate_less`, `cmp`. graph_search_job.hpp:247-253, materialized_view.hpp:486-492,
disk_flat_searcher.hpp:177-182. -/
def Hit.lt (a b : Hit) : Bool := if a.dist ≠ b.dist then decide (a.dist < b.dist) else decide (a.label < b.label)

/-- What the standard promises about `std::push_heap`, `std::pop_heap` and `std::sort` for the order `lt`. -/
structure StdHeap (α : Type) (lt : α → α → Bool) where
  isHeap : List α → Prop
  push : List α → List α
  pop : List α → List α
  sort : List α → List α
  heap_nil : isHeap []
  push_perm : ∀ l, (push l).Perm l
  push_heap : ∀ l x, isHeap l → isHeap (push (l ++ [x]))
  pop_spec : ∀ f r, isHeap (f :: r) → ∃ l, pop (f :: r) = l ++ [f] ∧ l.Perm r ∧ isHeap l
  front_max : ∀ f r, isHeap (f :: r) → ∀ x ∈ r, lt f x = false
  sort_perm : ∀ l, (sort l).Perm l
  sort_sorted : ∀ l, (sort l).Pairwise (fun a b => lt b a = false)

/-- One candidate. `none`: `front()` of an empty vector (undefined behaviour). graph_search_job.hpp:279-289 -/
def offer {α : Type} {lt : α → α → Bool} (H : StdHeap α lt) (k : Nat) (heap : List α) (c : α) : Option (List α) :=
  if heap.length < k then some (H.push (heap ++ [c]))
  else match heap with
    | [] => none
    | f :: _ => if lt c f then some (H.push ((H.pop heap).dropLast ++ [c])) else some heap

/-- All candidates in order. -/
def offerAll {α : Type} {lt : α → α → Bool} (H : StdHeap α lt) (k : Nat) : List α → List α → Option (List α)
  | [], heap => some heap
  | c :: cs, heap => match offer H k heap c with
    | none => none
    | some heap' => offerAll H k cs heap'

/-- The loop and the final sort. -/
def select {α : Type} {lt : α → α → Bool} (H : StdHeap α lt) (k : Nat) (cs : List α) : Option (List α) :=
  (offerAll H k cs []).map H.sort

/-- `rerank`: `desc` and `distances` after the call (`invalid` = `numeric_limits::max()`), `none` = undefined behaviour.
`ids` are the ids of the source pool.  The scratch pool always exists (created in the constructor, line 129) and a
leased buffer is cleared (`prepare`, line 152), so a fresh heap is used. graph_search_job.hpp:306-347 -/
def rerank (H : StdHeap Hit Hit.lt) (dist : Nat → Int) (ids : List Nat) (topk : Nat) (invalid : Hit) : Option (List Hit) :=
  if topk = 0 then some []
  else match select H topk (ids.map (fun i => ⟨i, dist i⟩)) with
    | none => none
    | some heap => some (heap.take topk ++ List.replicate (topk - heap.length) invalid)

/-- Repeated `insert_candidate` with a limit, then `sort_candidates`. materialized_view.hpp:494-520 -/
def mvSelect (H : StdHeap Hit Hit.lt) (limit : Nat) (cs : List Hit) : Option (List Hit) :=
  if limit = 0 then some (H.sort []) else select H limit cs

end Alaya.TopK
