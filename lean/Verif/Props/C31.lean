import Verif.Lemmas.DiskSearch
import Verif.Props.C30

/-! C31: searching several segments equals searching their union. -/
namespace Alaya.DiskColl
open Alaya.TopK Alaya.Spec

/-- Ascending distance with NaN last, then ascending label. -/
def dhitLe (a b : DHit) : Prop :=
  match a.dist, b.dist with
  | some x, some y => x < y ∨ (x = y ∧ a.label ≤ b.label)
  | some _, none => True
  | none, some _ => False
  | none, none => a.label ≤ b.label

theorem leOf_dhitLe : leOf hitLess = dhitLe := by
  funext a b
  obtain ⟨la, da⟩ := a
  obtain ⟨lb, db⟩ := b
  unfold leOf dhitLe
  cases da <;> cases db <;> simp [hitLess, distEq, distLess]
  split <;> (try simp) <;> omega

/-- The merge returns the `topk` best of the union of the segments' hits, however many segments there are. -/
theorem C31_merge_union (S1 : StdSort DHit hitLess) (S2 : (laser : Bool) → StdSort Tagged (tagLess laser))
    (segs : List (List DHit)) (topk : Nat) (hk : 0 < topk) :
    ∃ out, search S1 S2 false segs topk = some out ∧ Best dhitLe topk out segs.flatten := by
  unfold search
  rw [if_neg (by omega), ← leOf_dhitLe]
  match segs with
  | [] => exact ⟨[], rfl, List.Pairwise.nil, by simp, [], by simp, by simp⟩
  | [hits] =>
    refine ⟨_, rfl, ?_⟩
    have := best_of_sort S1 topk hits
    simpa using this
  | a :: b :: segs =>
    refine ⟨_, rfl, ?_⟩
    have h := best_of_sort (S2 false) topk (tagAll 0 (a :: b :: segs))
    have := best_map (le' := leOf hitLess) Tagged.hit (fun x y hxy => tag_le_hit hxy) h
    rwa [tagAll_hits] at this

/-- If every segment returns the best `topk` of its own rows, the collection returns the best `topk` of all rows. -/
theorem C31_exact_topk (S1 : StdSort DHit hitLess) (S2 : (laser : Bool) → StdSort Tagged (tagLess laser))
    (segs : List (List DHit × List DHit)) (topk : Nat) (hk : 0 < topk)
    (h : ∀ p ∈ segs, Best dhitLe topk p.1 p.2) :
    ∃ out, search S1 S2 false (segs.map Prod.fst) topk = some out ∧ Best dhitLe topk out (segs.map Prod.snd).flatten := by
  obtain ⟨out, e, hb⟩ := C31_merge_union S1 S2 (segs.map Prod.fst) topk hk
  refine ⟨out, e, ?_⟩
  rw [← leOf_dhitLe] at *
  exact best_merge hitLess_weak h hb

/-- The result does not depend on how the rows are distributed over segments (or on their order). -/
theorem C31_partition_independent (S1 S1' : StdSort DHit hitLess) (S2 S2' : (laser : Bool) → StdSort Tagged (tagLess laser))
    (segs segs' : List (List DHit × List DHit)) (topk : Nat) (hk : 0 < topk)
    (h : ∀ p ∈ segs, Best dhitLe topk p.1 p.2) (h' : ∀ p ∈ segs', Best dhitLe topk p.1 p.2)
    (hp : (segs.map Prod.snd).flatten.Perm (segs'.map Prod.snd).flatten) :
    search S1 S2 false (segs.map Prod.fst) topk = search S1' S2' false (segs'.map Prod.fst) topk := by
  obtain ⟨a, ea, ha⟩ := C31_exact_topk S1 S2 segs topk hk h
  obtain ⟨b, eb, hb⟩ := C31_exact_topk S1' S2' segs' topk hk h'
  rw [← leOf_dhitLe] at ha hb
  rw [ea, eb, Best.unique hitLess_weak DHit.antisymm ha hb hp]

/-- For Flat segments: any list of segments that open, any acceptable query: the collection returns the best rows of
all segment files together. -/
theorem C31_flat_collection_exact (K : DiskFlat.Kernel) (H : StdHeap Hit Hit.lt) (S1 : StdSort DHit hitLess)
    (S2 : (laser : Bool) → StdSort Tagged (tagLess laser)) (m : DiskFlat.Metric) (segs : List DiskFlat.Segment)
    (hs : ∀ s ∈ segs, s.opens = true ∧ s.metric = m) (query : List Nat) (hq : DiskFlat.QueryOk m query) (topk : Nat) (hk : 0 < topk) :
    ∃ (hits : List (List Hit)) (out : List DHit),
      segs.map (fun s => s.search K H query topk) = hits.map (fun h => some (some h)) ∧
      search S1 S2 false (hits.map (fun h => h.map (fun x => ⟨x.label, some x.dist⟩))) topk = some out ∧
      Best dhitLe topk out (segs.map (fun s => (List.range s.count).map (fun i =>
        (⟨(DiskFlat.fileRow s i).1, some (K.dist m (DiskFlat.effQuery K m query) (DiskFlat.fileRow s i).2)⟩ : DHit)))).flatten := by
  have each : ∀ segs : List DiskFlat.Segment, (∀ s ∈ segs, s.opens = true ∧ s.metric = m) →
      ∃ ps : List (List Hit × List DHit), segs.map (fun s => s.search K H query topk) = ps.map (fun p => some (some p.1)) ∧
        (∀ p ∈ ps, Best dhitLe topk (p.1.map (fun x => (⟨x.label, some x.dist⟩ : DHit))) p.2) ∧
        ps.map Prod.snd = segs.map (fun s => (List.range s.count).map (fun i =>
          (⟨(DiskFlat.fileRow s i).1, some (K.dist m (DiskFlat.effQuery K m query) (DiskFlat.fileRow s i).2)⟩ : DHit))) := by
    intro segs
    induction segs with
    | nil => intro _; exact ⟨[], rfl, by simp, rfl⟩
    | cons s segs ih =>
      intro hs
      obtain ⟨ps, e1, e2, e3⟩ := ih (fun x hx => hs x (by simp [hx]))
      obtain ⟨ho, hm⟩ := hs s (by simp)
      obtain ⟨out, e, hb⟩ := DiskFlat.C30_search_exact K H s ho query topk hk (by rw [hm]; exact hq)
      rw [hm] at hb
      have hb' := best_map (le' := dhitLe) (fun x : Hit => (⟨x.label, some x.dist⟩ : DHit))
        (by intro a b hab; unfold hitLe at hab; unfold dhitLe; exact hab) hb
      rw [List.map_map] at hb'
      refine ⟨(out, (List.range s.count).map (fun i =>
          (⟨(DiskFlat.fileRow s i).1, some (K.dist m (DiskFlat.effQuery K m query) (DiskFlat.fileRow s i).2)⟩ : DHit))) :: ps,
        ?_, ?_, ?_⟩
      · simp only [List.map_cons, e, e1]
      · intro p hp
        rcases List.mem_cons.mp hp with h' | h'
        · subst h'; exact hb'
        · exact e2 p h'
      · simp only [List.map_cons, e3]
  obtain ⟨ps, e1, e2, e3⟩ := each segs hs
  obtain ⟨out, e, hb⟩ := C31_exact_topk S1 S2 (ps.map (fun p => (p.1.map (fun x => (⟨x.label, some x.dist⟩ : DHit)), p.2))) topk hk
    (by
      intro p hp
      obtain ⟨p', hp', rfl⟩ := List.mem_map.mp hp
      exact e2 p' hp')
  refine ⟨ps.map Prod.fst, out, ?_, ?_, ?_⟩
  · rw [e1, List.map_map]; rfl
  · rw [List.map_map] at e ⊢; exact e
  · rw [List.map_map] at hb
    rw [← e3]; exact hb

/-- LASER collections: hits are ordered by distance (NaN last), then by their rank in their segment, then by segment. -/
theorem C31_laser_rank_order (S1 : StdSort DHit hitLess) (S2 : (laser : Bool) → StdSort Tagged (tagLess laser))
    (a b : List DHit) (segs : List (List DHit)) (topk : Nat) (hk : 0 < topk) :
    ∃ ts, search S1 S2 true (a :: b :: segs) topk = some (ts.map Tagged.hit) ∧
      Best (leOf (tagLess true)) topk ts (tagAll 0 (a :: b :: segs)) ∧
      ∀ x ∈ ts, ∀ y ∈ tagAll 0 (a :: b :: segs), y ∉ ts → x.hit.dist = none → y.hit.dist = none ∧ x.rank ≤ y.rank := by
  unfold search
  rw [if_neg (by omega)]
  have hb := best_of_sort (S2 true) topk (tagAll 0 (a :: b :: segs))
  refine ⟨_, rfl, hb, ?_⟩
  intro x hx y hy hny hd
  obtain ⟨_, _, rest, hp, hr⟩ := hb
  have hyr : y ∈ rest := by
    rcases List.mem_append.mp (hp.mem_iff.mp hy) with h' | h'
    · exact absurd h' hny
    · exact h'
  have := hr y hyr x hx
  obtain ⟨⟨lx, dx⟩, sx, rx⟩ := x
  obtain ⟨⟨ly, dy⟩, sy, ry⟩ := y
  simp only at hd
  subst hd
  unfold leOf tagLess at this
  cases dy with
  | none =>
    simp only [distEq, Bool.not_true, Bool.false_eq_true, if_false, if_true] at this
    refine ⟨rfl, ?_⟩
    simp only
    split at this
    · simp at this; omega
    · omega
  | some v => simp [distEq, distLess] at this

/-- The comparison of disk_collection.hpp:657-668 when the compiler may assume that no NaN occurs (`std::isnan` is
folded to false and the comparisons are ordered): observation, because release builds use `-Ofast`
(/repo/cmake/AlayaFlags.cmake:39) and LASER hits carry NaN (disk_collection.hpp:1083). -/
def tagLessFast (a b : Tagged) : Bool :=
  match a.hit.dist, b.hit.dist with
  | some x, some y => if x ≠ y then decide (x < y)
      else (if a.rank ≠ b.rank then decide (a.rank < b.rank) else decide (a.seg < b.seg))
  | _, _ => false

/-- Under that assumption no two LASER hits are ordered: every permutation is a legal sort result. -/
theorem C31_fast_math_observation (ts : List Tagged) (h : ∀ t ∈ ts, t.hit.dist = none) :
    ts.Pairwise (fun a b => tagLessFast b a = false) := by
  rw [List.pairwise_iff_forall_sublist]
  intro a b hab
  have ha := h a (hab.subset (by simp))
  unfold tagLessFast
  rw [ha]
  cases b.hit.dist <;> rfl

/-- The contracts can be met, and a concrete merge with a tie and a NaN. -/
def sorter {α : Type} {lt : α → α → Bool} (hw : Weak lt) : StdSort α lt :=
  ⟨isort lt, isort_perm lt, isort_sorted hw⟩

example : search (sorter hitLess_weak) (fun l => sorter (tagLess_weak l)) false
    [[⟨4, some 2⟩, ⟨9, none⟩], [⟨3, some 2⟩, ⟨1, some 5⟩]] 3 = some [⟨3, some 2⟩, ⟨4, some 2⟩, ⟨1, some 5⟩] := by decide

example : search (sorter hitLess_weak) (fun l => sorter (tagLess_weak l)) true
    [[⟨4, none⟩, ⟨9, none⟩], [⟨3, none⟩, ⟨1, none⟩]] 3 = some [⟨4, none⟩, ⟨3, none⟩, ⟨9, none⟩] := by decide

end Alaya.DiskColl
