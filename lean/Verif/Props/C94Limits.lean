import Verif.Props.C94

/-! C94: what does not hold, and a concrete case. -/
namespace Alaya.QuantIndex
open Alaya Alaya.Pools Alaya.Spec Alaya.MemSearch Alaya.MemSearch.Spec Alaya.GraphUpdate Alaya.GraphUpdate.Spec Alaya.QuantIndex.Spec

/-- The 8-bit code of an integer in one dimension when the fitted range is 0 to 255: values outside of it get the code of its end.
/repo/include/space/quant/sq8.hpp:107-119 -/
def clamp (v : Int) : Int := if 255 ≤ v then 255 else if v ≤ 0 then 0 else v

def exDist (a b : Int) : Int := (a - b).natAbs

def exHeap : TopK.StdHeap TopK.Hit TopK.Hit.lt := TopK.sortedHeap TopK.Hit.weak

/-- Four vectors, all of them neighbours of each other, and room for two more. -/
def exGraph : MGraph := ⟨[[1, 2, 3], [0, 2, 3], [0, 1, 3], [0, 1, 2], [noId, noId, noId], [noId, noId, noId]], [0], none⟩

def exQ (enc : Int → Int) (vectors : List Int) : QIx Int Int := QIx.fit enc vectors exGraph 3

/-- The same index without quantisation. -/
def exRaw (vectors : List Int) : Ix Int := ⟨exGraph, vectors.map (fun _ => true), vectors, 3, [], [], []⟩

/-- A search after some calls. -/
def hits (enc : Int → Int) (vectors : List Int) (ops : List (Op Int)) (q : Int) (topk ef : Nat) : Option (Option (List (Nat × Int))) :=
  match (exQ enc vectors).run enc exDist (fun _ _ => 0) id 20 ops with
  | some (some (s, _)) =>
    match s.search enc exDist (fun _ _ => 0) exHeap exDist 1000000 q topk ef 20 with
    | some (some r) => some (some (r.map (fun x => (x.label, x.dist))))
    | some none => some none
    | none => none
  | _ => none

def rawHits (vectors : List Int) (ops : List (Op Int)) (q : Int) (topk ef : Nat) : Option (Option (List (Nat × Option Int))) :=
  match (exRaw vectors).run (Ix.near exDist 1000000) id 20 ops with
  | some (some (s, _)) => s.search (Ix.near exDist 1000000) q topk ef 20
  | _ => none

/-- Removed rows take the places of live ones: after rows 1 and 2 are removed, a search for the nearest row with `ef = 2` returns a
removed row, with the largest distance, although two live rows are neighbours of every row.  Here every vector has a code of its own; the
index without quantisation returns the nearest live row.  `ef = 3` is enough (`C94_enough`). -/
theorem C94_removed_crowd_refuted :
    hits clamp [30, 11, 12, 50] [.remove 1, .remove 2] 11 1 2 = some (some [(1, 1000000)]) ∧
    rawHits [30, 11, 12, 50] [.remove 1, .remove 2] 11 1 2 = some (some [(0, some 19)]) ∧
    hits clamp [30, 11, 12, 50] [.remove 1, .remove 2] 11 1 3 = some (some [(0, 19)]) := by decide +kernel

/-- With `topk` removed rows near the query and `ef = topk` nothing usable is returned. -/
theorem C94_only_removed_refuted :
    hits clamp [30, 11, 12, 50] [.remove 1, .remove 2] 11 2 2 = some (some [(1, 1000000), (2, 1000000)]) ∧
    rawHits [30, 11, 12, 50] [.remove 1, .remove 2] 11 2 2 = some (some [(0, some 19), (3, some 39)]) := by decide +kernel

/-- A vector outside of the range of the vectors the index was built from is inserted; a search for it with `ef = 1` returns another row,
because both have the code of the end of the range.  Without quantisation it is found. -/
theorem C94_out_of_range_refuted :
    hits clamp [100, 255, 200, 0] [.insert 400 3] 400 1 1 = some (some [(1, 145)]) ∧
    rawHits [100, 255, 200, 0] [.insert 400 3] 400 1 1 = some (some [(4, some 0)]) ∧
    hits clamp [100, 255, 200, 0] [.insert 400 3] 400 1 2 = some (some [(4, 0)]) := by decide +kernel

/-! ### A concrete case -/

theorem exGraph_ok : GraphOk exGraph 4 := by
  refine ⟨by decide, by decide, ?_, by decide, by simp [exGraph]⟩
  intro u hu v hv
  have : u = 0 ∨ u = 1 ∨ u = 2 ∨ u = 3 := by omega
  rcases this with rfl | rfl | rfl | rfl <;> simp [exGraph, nbrs, noId] at hv <;> omega

theorem exQ_inv (a b c e : Int) : QInv clamp (exQ clamp [a, b, c, e]) :=
  (C94_fit clamp [a, b, c, e] exGraph 3 (by simp) exGraph_ok (by decide) (by decide) (by simp [exGraph]) (by simp [exGraph]) (.inl (by
    intro u hu
    have hu' : u < 4 := hu
    have : u = 0 ∨ u = 1 ∨ u = 2 ∨ u = 3 := by omega
    rcases this with rfl | rfl | rfl | rfl <;> decide))).1

theorem exQ_connected (u v : Nat) (hu : u < 4) (hv : v < 4) : Reach exGraph.rows [u] v := by
  by_cases huv : u = v
  · subst huv; exact .seed (by simp)
  · refine .step (.seed (List.mem_singleton.mpr rfl)) ?_
    have h1 : u = 0 ∨ u = 1 ∨ u = 2 ∨ u = 3 := by omega
    have h2 : v = 0 ∨ v = 1 ∨ v = 2 ∨ v = 3 := by omega
    rcases h1 with rfl | rfl | rfl | rfl <;> rcases h2 with rfl | rfl | rfl | rfl <;> first | omega | decide

/-- The hypotheses of `C94_history` and `C94_enough` are met, also after a removal. -/
example : proper 6 3 [Op.insert (77 : Int) 4, .remove 1, .insert 300 3, .insert 5 3] 4 := by simp [proper]
example : contents 6 [Op.insert (77 : Int) 4, .remove 1, .insert 300 3, .insert 5 3] (exQ clamp [30, 11, 12, 50]).abs =
    ([(30, true), (11, false), (12, true), (50, true), (77, true), (300, true)], [some 4, some 5, none]) := by decide
example : goneCount (contents 6 [Op.remove (V := Int) 1, .remove 2] (exQ clamp [30, 11, 12, 50]).abs).1 = 2 := by decide
example : ∃ best, best.length = 3 ∧
    (exQ clamp [30, 11, 12, 50]).search clamp exDist (fun _ _ => 0) exHeap (fun a b => if a = b then 0 else 1) 1000000 12 3 3 (4 + 1) =
      some (some best) := by
  obtain ⟨best, h1, -, -, -, h2⟩ := C94_enough (dq := exDist) (junk := fun _ _ => 0) (d := fun a b => if a = b then 0 else 1)
    (fmax := 1000000) exHeap (exQ clamp [30, 11, 12, 50]) (exQ_inv _ _ _ _) 12 3 3 (by decide) (by decide)
    (by intro v; split <;> decide) (fun u v hu hv => exQ_connected u v hu hv) (by decide)
  exact ⟨best, h1, h2 0⟩
example : hits clamp [30, 11, 12, 50] [.insert 31 4, .remove 1, .insert 35 3] 34 3 6 = some (some [(5, 1), (4, 3), (0, 4)]) := by
  decide +kernel

end Alaya.QuantIndex
