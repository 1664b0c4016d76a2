import Verif.Model.QuantFile
import Verif.Props.C71
import Verif.Props.C94

/-! C95: saving and loading a quantised in-memory index. -/
namespace Alaya.QuantFile
open Alaya Alaya.MemSearch Alaya.GraphUpdate Alaya.GraphUpdate.Spec Alaya.IndexFile Alaya.QuantIndex Alaya.QuantIndex.Spec Alaya.Spec Alaya.Seq

/-- What an index must satisfy: its storages come from the calls of the API, and its numbers fit the types of the members. -/
structure QIndexOk (w : Nat) (x : QIndex) : Prop where
  graph : GraphFileOk w x.graph
  build : SpaceFileOk w x.build
  codes : SpaceFileOk w x.codes
  noScalar : x.build.config = none
  quant : x.quant.dim < 2 ^ 32 ∧ x.quant.mins.length = x.quant.dim * 4 ∧ x.quant.maxs.length = x.quant.dim * 4

theorem quant_file {q : Quant} (h : q.dim < 2 ^ 32 ∧ q.mins.length = q.dim * 4 ∧ q.maxs.length = q.dim * 4) :
    ∃ file, q.save = some file ∧ Quant.load file = some (q, []) := by
  have e1 : splitN (q.dim * 4) q.mins = some (q.mins, []) := by
    have := splitN_append' (b := []) h.2.1
    rwa [List.append_nil] at this
  have e2 : splitN (q.dim * 4) q.maxs = some (q.maxs, []) := by
    have := splitN_append' (b := []) h.2.2
    rwa [List.append_nil] at this
  refine ⟨leBytes 4 q.dim ++ (q.mins ++ q.maxs), ?_, ?_⟩
  · rw [Quant.save, e1, e2]
  · rw [Quant.load, rdNat_le (lt4 h.1)]
    simp only
    rw [splitN_append' h.2.1]
    simp only
    rw [e2]

theorem rows_eq {s t : SpaceS} (hp : t.store.pos = s.store.pos) (hc : s.store.pos ≤ s.capacity)
    (h : ∀ i, i < s.capacity → t.store.isValid i = s.store.isValid i ∧ t.store.read i = s.store.read i) :
    rowsOf t = rowsOf s ∧ marksOf t = marksOf s := by
  unfold rowsOf marksOf
  rw [hp]
  exact ⟨List.map_congr_left (fun i hi => by rw [(h i (Nat.lt_of_lt_of_le (List.mem_range.mp hi) hc)).2]),
    List.map_congr_left (fun i hi => by rw [(h i (Nat.lt_of_lt_of_le (List.mem_range.mp hi) hc)).1])⟩

/-- Saving and loading gives the same index, except that the record of the removed rows is empty. -/
theorem C95_save_load {w : Nat} {x : QIndex} (h : QIndexOk w x) {pad : Bytes} (hp : w - 4 ≤ pad.length) (j : Junk)
    (hj : j.ep < 256 ^ w) (bits : List (BitVec 8)) :
    ∃ files y, x.save w pad = some files ∧ QIndex.load w x.codes.config.isSome j bits files = some y ∧
      y.view w = { x.view w with ix := { (x.view w).ix with inserted := [], removed := [], removedNbrs := [] } } ∧
      y.quant = x.quant ∧ y.build.metric = x.build.metric ∧ y.build.dim = x.build.dim ∧
      y.codes.metric = x.codes.metric ∧ y.codes.dim = x.codes.dim ∧ y.codes.config = x.codes.config ∧
      y.build.itemCnt = x.build.itemCnt ∧ y.build.deleteCnt = x.build.deleteCnt ∧
      y.codes.itemCnt = x.codes.itemCnt ∧ y.codes.deleteCnt = x.codes.deleteCnt := by
  obtain ⟨file, g', e1, e2, a1, a2, a3, a4, a5, a6, a7⟩ := graph_file h.graph hp j hj
  obtain ⟨b', f1, b1, b2, b3, b4, b5, b6, b7, b8, b9, b10, b11⟩ := space_file h.build j.spaceBits []
  obtain ⟨qf, q1, q2⟩ := quant_file h.quant
  obtain ⟨c', d1, c1, c2, c3, c4, c5, c6, c7, c8, c9, c10, c11⟩ := space_file h.codes bits qf
  rw [List.append_nil, h.noScalar] at f1
  refine ⟨⟨file, x.build.save w, x.codes.save w ++ qf⟩, ⟨g', b', c', x.quant, [], [], []⟩, ?_, ?_, ?_, rfl, b1, b3, c1, c3, c7, b4, b5,
    c4, c5⟩
  · rw [QIndex.save, e1, q1]
  · have hl : SpaceS.load w false j (x.build.save w) = some b' := by
      rw [SpaceS.load, show (false : Bool) = (none : Option Config).isSome from rfl, f1]; rfl
    have hc : loadCodes w x.codes.config.isSome bits (x.codes.save w ++ qf) = some (c', x.quant) := by
      rw [loadCodes, d1]
      simp only
      rw [q2]
    rw [QIndex.load, e2, hl, hc]
  · obtain ⟨r1, r2⟩ := rows_eq b9 b10 b11
    obtain ⟨r3, r4⟩ := rows_eq c9 c10 c11
    unfold QIndex.view GraphS.view
    simp only [a1, a3, a4, a5, r1, r2, r3, r4, b8]
    have hr : (List.range x.graph.store.cap).map (g'.row w) = (List.range x.graph.store.cap).map (x.graph.row w) := by
      refine List.map_congr_left (fun i hi => ?_)
      unfold GraphS.row
      rw [(a7 i (List.mem_range.mp hi)).2, a3]
    rw [hr]

/-- A loaded index answers every search as the saved one, whatever rows have been inserted and removed. -/
theorem C95_search {w : Nat} {x : QIndex} (h : QIndexOk w x) {pad : Bytes} (hp : w - 4 ≤ pad.length) (j : Junk)
    (hj : j.ep < 256 ^ w) (bits : List (BitVec 8)) :
    ∃ files y, x.save w pad = some files ∧ QIndex.load w x.codes.config.isSome j bits files = some y ∧
      ∀ (F : Fns) (H : TopK.StdHeap TopK.Hit TopK.Hit.lt) (q : Bytes) (topk ef fuel : Nat),
        y.search F w H q topk ef fuel = x.search F w H q topk ef fuel := by
  obtain ⟨files, y, e1, e2, hv, h1, h2, h3, h4, h5, _⟩ := C95_save_load h hp j hj bits
  refine ⟨files, y, e1, e2, fun F H q topk ef fuel => ?_⟩
  unfold QIndex.search
  rw [hv, h1, h2, h3, h4, h5]
  rfl

/-- If no row has been removed from the saved index since it was built or loaded, every history of insertions and removals on the
loaded index returns the same ids and ends in the same index. -/
theorem C95_updates {w : Nat} {x : QIndex} (h : QIndexOk w x) (hr : x.removed = []) (hn : x.removedNbrs = []) (hi : x.inserted = [])
    {pad : Bytes} (hp : w - 4 ≤ pad.length) (j : Junk) (hj : j.ep < 256 ^ w) (bits : List (BitVec 8)) :
    ∃ files y, x.save w pad = some files ∧ QIndex.load w x.codes.config.isSome j bits files = some y ∧
      ∀ (F : Fns) (ord : List Nat → List Nat) (fuel : Nat) (ops : List (GraphUpdate.Op Bytes)),
        y.run F w ord fuel ops = x.run F w ord fuel ops := by
  obtain ⟨files, y, e1, e2, hv, h1, h2, h3, h4, h5, _⟩ := C95_save_load h hp j hj bits
  refine ⟨files, y, e1, e2, fun F ord fuel ops => ?_⟩
  have : ({ x.view w with ix := { (x.view w).ix with inserted := [], removed := [], removedNbrs := [] } } : QIx Bytes Bytes) = x.view w := by
    unfold QIndex.view
    simp only [hr, hn, hi]
  unfold QIndex.run
  rw [hv, h1, h4, h5, this]

/-- Whatever has been removed before: if the saved index was in the order of C94, so is the loaded one, and every proper history on it
ends as the specification says, from the rows and marks of the saved one. -/
theorem C95_history {w : Nat} {x : QIndex} (h : QIndexOk w x) (F : Fns) (hx : QInv (F.enc x.quant) (x.view w)) {pad : Bytes}
    (hp : w - 4 ≤ pad.length) (j : Junk) (hj : j.ep < 256 ^ w) (bits : List (BitVec 8)) {ord : List Nat → List Nat}
    (ho : ∀ l, (ord l).Perm l) (ops : List (GraphUpdate.Op Bytes))
    (hops : proper x.build.store.cap x.graph.maxNbrs ops (x.view w).raw.length) :
    ∃ files y s', x.save w pad = some files ∧ QIndex.load w x.codes.config.isSome j bits files = some y ∧
      (∀ extra, y.run F w ord (x.build.store.cap + 1 + extra) ops =
        some (some (s', (contents x.build.store.cap ops (x.view w).abs).2))) ∧
      QInv (F.enc x.quant) s' ∧ s'.abs = (contents x.build.store.cap ops (x.view w).abs).1 := by
  obtain ⟨files, y, e1, e2, hv, h1, h2, h3, h4, h5, _⟩ := C95_save_load h hp j hj bits
  have hi : QInv (F.enc x.quant) (y.view w) := by
    rw [hv]; exact ⟨hx.ix.reopened, hx.code, hx.live, hx.cap⟩
  have hc : (y.view w).rawCap = x.build.store.cap := by rw [hv]; rfl
  have ha : (y.view w).abs = (x.view w).abs := by rw [hv]; rfl
  have hl : (y.view w).raw = (x.view w).raw := by rw [hv]
  have hm : (y.view w).ix.maxNbrs = x.graph.maxNbrs := by rw [hv]; rfl
  obtain ⟨s', r1, r2, r3, -⟩ := C94_history (dq := F.dq x.codes.metric x.codes.dim x.quant) (junk := F.junk) ho ops (y.view w) hi
    (by rw [hc, hl, hm]; exact hops)
  rw [hc, ha] at r1 r3
  refine ⟨files, y, s', e1, e2, fun extra => ?_, r2, r3⟩
  unfold QIndex.run
  rw [h1, h4, h5]
  exact r1 extra

end Alaya.QuantFile
