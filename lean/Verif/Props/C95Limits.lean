import Verif.Props.C95

/-! C95: what does not hold, and a concrete case. -/
namespace Alaya.QuantFile
open Alaya Alaya.MemSearch Alaya.GraphUpdate Alaya.GraphUpdate.Spec Alaya.IndexFile Alaya.QuantIndex Alaya.QuantIndex.Spec Alaya.Spec Alaya.Seq

/-- One component, between the fitted ends; the code is the distance from the lower end. -/
def exEnc (q : Quant) (v : Bytes) : Bytes := [UInt8.ofNat (max (leNat q.mins) (min (leNat q.maxs) (leNat v)) - leNat q.mins)]

def exFns : Fns := ⟨exEnc, fun _ _ _ a b => ((leNat a : Int) - leNat b).natAbs, fun _ _ => 0, fun _ _ a b => ((leNat a : Int) - leNat b).natAbs, 1000⟩

def exQuant : Quant := ⟨1, [10, 0, 0, 0], [90, 0, 0, 0]⟩

/-- An index with ids of four bytes, two neighbours per node, room for six one-component vectors; rows `gone` have been removed. -/
def exQIndex (rows : List (List Nat)) (vecs : List Nat) (over : Option Over) (gone : List Nat) : QIndex where
  graph := ⟨[0], 6, 2, filled 8 6 255 (rows.map (fun r => .insert (idBytes 4 r)) ++ gone.map .remove), over⟩
  build := ⟨0, 4, 1, vecs.length, gone.length, 6, none, filled 4 6 0 (vecs.map (fun v => .insert (leBytes 4 v)) ++ gone.map .remove)⟩
  codes := ⟨0, 1, 1, vecs.length, gone.length, 6, some ⟨str "./db", 67108864, 4, 67108864, 4, 2, 512, false, [str "tag"]⟩,
    filled 1 6 0 (vecs.map (fun v => .insert (exEnc exQuant (leBytes 4 v))) ++ gone.map .remove)⟩
  quant := exQuant
  inserted := []
  removed := gone
  removedNbrs := gone.map (fun r => (r, ((rows.getD r []).takeWhile (· ≠ noId))))

/-- Loading what saving wrote. -/
def qreload (x : QIndex) : Option QIndex :=
  match x.save 4 [0, 0, 0, 0] with
  | none => none
  | some files => QIndex.load 4 x.codes.config.isSome (exJunk 4) [85#8] files

/-- The hits of a search after some calls. -/
def qhits (x : Option QIndex) (ops : List (GraphUpdate.Op Bytes)) (q topk ef : Nat) : Option (Option (List (Nat × Int))) :=
  match x with
  | none => none
  | some x =>
    match x.run exFns 4 id 30 ops with
    | some (some (s, _)) =>
      match s.search (exEnc x.quant) (exFns.dq 0 0 x.quant) exFns.junk (TopK.sortedHeap TopK.Hit.weak) (exFns.d 0 0) 1000 (leBytes 4 q) topk ef 30 with
      | some (some r) => some (some (r.map (fun h => (h.label, h.dist))))
      | _ => none
    | _ => none

def exQGone : QIndex := exQIndex [[1, 2], [3, noId], [0, noId], [noId, noId]] [20, 60, 30, 22] none [1]

/-- Row 1 has been removed.  After saving and loading, the same insertion gives another graph: the vector 30 (row 2) is found by the
loaded index and not by the one that kept running. -/
theorem C95_job_context_refuted :
    qhits (some exQGone) [] 30 1 6 = some (some [(2, 0)]) ∧ qhits (qreload exQGone) [] 30 1 6 = some (some [(2, 0)]) ∧
    qhits (some exQGone) [.insert (leBytes 4 19) 6] 30 1 6 = some (some [(3, 8)]) ∧
    qhits (qreload exQGone) [.insert (leBytes 4 19) 6] 30 1 6 = some (some [(2, 0)]) := by
  exact ⟨by decide +kernel, by decide +kernel, by decide +kernel, by decide +kernel⟩

/-- An index, and the same one after 40 has been inserted as row 3. -/
def exBefore : QIndex := exQIndex [[1, 2], [0, 2], [0, 1]] [10, 50, 90] none []
def exAfter : QIndex := exQIndex [[1, 3], [0, 2], [0, 1], [0, 2]] [10, 50, 90, 40] none []

/-- The files after `k` of the three have been overwritten. -/
def mixed (k : Nat) (old new : Files) : Files :=
  ⟨if 1 ≤ k then new.graph else old.graph, if 2 ≤ k then new.data else old.data, if 3 ≤ k then new.quant else old.quant⟩

def crashed (k : Nat) (a b : QIndex) : Option QIndex :=
  match a.save 4 [0, 0, 0, 0], b.save 4 [0, 0, 0, 0] with
  | some old, some new => QIndex.load 4 true (exJunk 4) [85#8] (mixed k old new)
  | _, _ => none

/-- The three files are overwritten one after the other.  If the process ends after the first, the index is loaded without an error and
a search for the row nearest to 12 returns a row that is not in the index; both complete sets of files give row 0. -/
theorem C95_crash_refuted :
    qhits (crashed 0 exBefore exAfter) [] 12 1 1 = some (some [(0, 2)]) ∧
    qhits (crashed 3 exBefore exAfter) [] 12 1 1 = some (some [(0, 2)]) ∧
    (crashed 1 exBefore exAfter).map (fun x => (x.view 4).raw.length) = some 3 ∧
    qhits (crashed 1 exBefore exAfter) [] 12 1 1 = some (some [(3, 1000)]) := by
  exact ⟨by decide +kernel, by decide +kernel, by decide +kernel, by decide +kernel⟩

/-! ### A concrete case -/

/-- An index with upper layers, scalar data and a removed row. -/
def exQOk : QIndex := exQIndex [[1, 2], [0, 2], [0, 1]] [10, 50, 90]
  (some ⟨6, 2, 0, [1, 1, 0, 0, 0, 0], [[1, noId], [0, noId], [], [], [], []]⟩) [2]

theorem exQOk_ok : QIndexOk 4 exQOk where
  graph := ⟨.inl rfl, ⟨⟨by decide, by decide, by decide⟩, [[1, 2], [0, 2], [0, 1]].map (fun r => .insert (idBytes 4 r)) ++ [.remove 2],
    [some 0, some 1, some 2, some 2], by intro op h; simp at h; rcases h with rfl | rfl | rfl | rfl <;> first | exact rfl | exact (by decide : 2 < 6), by decide +kernel⟩, by decide, by decide, by
      intro o h
      cases h
      exact ⟨by decide, by decide, by decide, rfl, rfl, by decide⟩⟩
  build := ⟨⟨⟨by decide, by decide, by decide⟩, [.insert (leBytes 4 10), .insert (leBytes 4 50), .insert (leBytes 4 90), .remove 2],
    [some 0, some 1, some 2, some 2], by intro op h; simp at h; rcases h with rfl | rfl | rfl | rfl <;> first | exact rfl | exact (by decide : 2 < 6), by decide +kernel⟩,
    by decide, by decide, by intro c h; cases h⟩
  codes := ⟨⟨⟨by decide, by decide, by decide⟩, [.insert [0], .insert [40], .insert [80], .remove 2],
    [some 0, some 1, some 2, some 2], by intro op h; simp at h; rcases h with rfl | rfl | rfl | rfl <;> first | exact rfl | exact (by decide : 2 < 6), by decide +kernel⟩,
    by decide, by decide, by intro c h; cases h; exact ⟨by decide, by decide, by decide, by decide, by decide⟩⟩
  noScalar := rfl
  quant := by decide

def exQGraph : MGraph := (exQOk.view 4).ix.g

def exFit : QIx Bytes Bytes := QIx.fit (exEnc exQuant) [leBytes 4 10, leBytes 4 50, leBytes 4 90] exQGraph 2

theorem exFit_inv : QInv (exEnc exQuant) exFit := by
  have hg : exQGraph = ⟨[[1, 2], [0, 2], [0, 1], [noId, noId], [noId, noId], [noId, noId]], [0],
    some ⟨2, 0, [1, 1, 0, 0, 0, 0], [[1, noId], [0, noId], [], [], [], []]⟩⟩ := by decide +kernel
  unfold exFit
  rw [hg]
  refine (C94_fit _ _ _ 2 (by simp) ?_ (by decide) (by decide) (by simp) ?_ (.inl ?_)).1
  · have h3 : ∀ i, i < 3 → i = 0 ∨ i = 1 ∨ i = 2 := by omega
    refine ⟨by decide, by decide, ?_, by decide, ?_⟩
    · intro u hu v hv
      rcases h3 u hu with rfl | rfl | rfl <;> (simp [MemSearch.Spec.nbrs, noId] at hv; show v < 3; omega)
    · intro o ho
      cases ho
      refine ⟨by decide, ?_, ?_⟩
      · intro i hi
        rcases h3 i hi with rfl | rfl | rfl
        · exact ⟨1, [1, noId], rfl, rfl, by decide⟩
        · exact ⟨1, [0, noId], rfl, rfl, by decide⟩
        · exact ⟨0, [], rfl, rfl, by decide⟩
      · intro i lv level blk hi hl h1 h2 hb v hv
        rcases h3 i hi with rfl | rfl | rfl <;> cases hl
        · obtain rfl : level = 1 := by omega
          cases hb
          obtain rfl : v = 1 := by simpa [noId] using hv
          exact ⟨by decide, 1, rfl, by decide⟩
        · obtain rfl : level = 1 := by omega
          cases hb
          obtain rfl : v = 0 := by simpa [noId] using hv
          exact ⟨by decide, 1, rfl, by decide⟩
        · omega
  · intro o ho i h1 h2
    cases ho
    have h1' : 3 ≤ i := h1
    have h2' : i < 6 := h2
    have : i = 3 ∨ i = 4 ∨ i = 5 := by omega
    rcases this with rfl | rfl | rfl <;> exact ⟨rfl, [], rfl⟩
  · intro u hu
    have hu' : u < 3 := hu
    have : u = 0 ∨ u = 1 ∨ u = 2 := by omega
    rcases this with rfl | rfl | rfl <;> decide

set_option maxRecDepth 100000 in
theorem exQOk_inv : QInv (exFns.enc exQOk.quant) (exQOk.view 4) := by
  obtain ⟨s', h1, h2, -⟩ := remove_step exFit exFit_inv 2 (by decide) (by decide)
  have : exFit.remove 2 = some (exQOk.view 4) := by decide +kernel
  rw [this] at h1
  cases h1
  exact h2

example : proper 6 2 [GraphUpdate.Op.insert (leBytes 4 45) 3, .remove 1] 3 := by simp [proper]

example : qhits (some exQOk) [] 60 2 6 = some (some [(1, 10), (0, 50)]) ∧ qhits (qreload exQOk) [] 60 2 6 = some (some [(1, 10), (0, 50)]) ∧
    qhits (qreload exQOk) [.insert (leBytes 4 45) 3, .remove 1] 60 2 6 = some (some [(3, 15), (0, 50)]) := by decide +kernel

end Alaya.QuantFile
