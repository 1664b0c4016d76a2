import Mathlib.Data.List.Flatten
import Verif.Lemmas.LaserRun

/-
C90: a search in a LASER segment.
The device executes the reads at any time and in any order; the estimates of the distances are arbitrary (C77, C78 say how good they are).
-/
namespace Alaya.Props
open Alaya Alaya.Pools Alaya.Hybrid Alaya.Hybrid.Spec Alaya.RSearch Alaya.Laser Alaya.Laser.Spec

variable {α : Type}

/-- The node that the file holds: the page `c / perPage`, the place `c % perPage`. -/
def fileNode (I : Index α) (c : Nat) : Row := I.decode (I.dev (c / I.perPage)) (c % I.perPage)

def fileNbs (I : Index α) (c : Nat) : List (Nat × Int) := (fileNode I c).nbs

def fileDist (I : Index α) (c : Nat) : Int := (fileNode I c).exact

/-- All ids are ids of nodes, and the nodes in memory are those of the file. -/
structure LGraph (I : Index α) : Prop where
  small : I.n ≤ 2147483648
  entry : I.ep < I.n
  medoids : ∀ m ∈ I.medoids, m.1 < I.n
  edges : ∀ c < I.n, ∀ e ∈ fileNbs I c, e.1 < I.n
  cache : ∀ c r, I.cache c = some r → r = fileNode I c

theorem C90_bound (f : Nat → Int) : ∀ n : Nat, ∃ m, ∀ c < n, f c ≤ m
  | 0 => ⟨0, fun c h => absurd h (by omega)⟩
  | n + 1 => by
    obtain ⟨m, hm⟩ := C90_bound f n
    refine ⟨max m (f n), fun c hc => ?_⟩
    by_cases h : c = n
    · rw [h]; omega
    · have := hm c (by omega); omega

theorem C90_bound_list (l : List (Nat × Int)) : ∃ m : Int, ∀ e ∈ l, e.2 ≤ m := by
  induction l with
  | nil => exact ⟨0, by simp⟩
  | cons x xs ih =>
    obtain ⟨m, hm⟩ := ih
    refine ⟨max m x.2, fun e he => ?_⟩
    rcases List.mem_cons.mp he with h | h
    · rw [h]; omega
    · have := hm e h; omega

theorem C90_medoid {n : Nat} (hn : 0 < n) {ms : List (Nat × Int)} (h : ∀ m ∈ ms, m.1 < n) (fmax : Int) : bestMedoid fmax ms < n := by
  unfold bestMedoid
  have : ∀ (ms : List (Nat × Int)) (b : Nat × Int), (∀ m ∈ ms, m.1 < n) → b.1 < n →
      (ms.foldl (fun (b : Nat × Int) m => if m.2 < b.2 then m else b) b).1 < n := by
    intro ms
    induction ms with
    | nil => intro b _ hb; exact hb
    | cons x xs ih =>
      intro b hx hb
      apply ih _ (fun m hm => hx m (by simp [hm]))
      show (if x.2 < b.2 then x else b).1 < n
      split
      · exact hx x (by simp)
      · exact hb
  exact this ms (0, fmax) h hn

theorem LGraph.ok {I : Index α} (h : LGraph I) : ∃ dmax R, IOk I dmax R := by
  have h1 : ∀ c, ∃ m : Int, ∀ e ∈ fileNbs I c, e.2 ≤ m := fun c => C90_bound_list _
  choose f hf using h1
  obtain ⟨m1, hm1⟩ := C90_bound f I.n
  obtain ⟨m2, hm2⟩ := C90_bound (fileDist I) I.n
  obtain ⟨m3, hm3⟩ := C90_bound (fun c => ((fileNbs I c).length : Int)) I.n
  refine ⟨max (max m1 m2) I.fmax, m3.toNat, ⟨h.small, ?_, ?_, ?_, ?_, by omega, h.cache⟩⟩
  · intro s hs
    unfold Index.starts at hs
    have := h.entry
    split at hs
    · simp only [List.nil_append, List.mem_singleton] at hs; omega
    · simp only [List.cons_append, List.nil_append, List.mem_cons, List.not_mem_nil, or_false] at hs
      rcases hs with hs | hs
      · rw [hs]; exact C90_medoid (by omega) h.medoids _
      · omega
  · intro c hc e he
    refine ⟨h.edges c hc e he, ?_⟩
    have := hf c e he
    have := hm1 c hc
    omega
  · intro c hc
    have := hm3 c hc
    show (fileNbs I c).length ≤ _
    omega
  · intro c hc
    have := hm2 c hc
    show fileDist I c ≤ _
    omega

/-! ### No access outside, no exception -/

/-- As long as the device executes what it is given: the search never leaves its arrays, throws no exception, and a node is only taken from a
page that holds it.  At most one and a half times the beam width of requests are with the device. -/
theorem C90_safe {I : Index α} (hG : LGraph I) {k ef mb : Nat} (hk : 0 < k) (hef : 0 < ef) (hmb1 : 1 ≤ mb) (hmb : mb ≤ 1024) (mem : Nat → α) (es : List Ev)
    (hes : ∀ e ∈ es, Normal e) :
    ∃ q0 q, start I k ef mb mem = some q0 ∧ run I mb es q0 = some q ∧ q.pc ≠ .thrown ∧
      (∀ e ∈ q.prepared, I.nodeIn (q.mem e.2) e.1 = fileNode I e.1) ∧ q.flying.length + q.done.length ≤ mb + mb / 2 := by
  obtain ⟨dmax, R, hI⟩ := hG.ok
  obtain ⟨q0, a1, a2, -, a4, _⟩ := start_spec (k := k) hI hef hmb1 mem
  obtain ⟨q, E, b1, b2, b3⟩ := run_spec hI hef hk hmb1 hmb es hes a2 a4
  refine ⟨q0, q, a1, b1, ?_, ?_, b2.flight b3⟩
  · intro hpc
    have := b2.cnt
    unfold CountOk at this
    rw [hpc] at this
    exact this
  · intro e he
    rw [b2.prepPage e he]
    rfl

/-- Every search ends, if the search and the device go on. -/
theorem C90_ends {I : Index α} (hG : LGraph I) {k ef mb : Nat} (hk : 0 < k) (hef : 0 < ef) (hmb1 : 1 ≤ mb) (hmb : mb ≤ 1024) (mem : Nat → α) {σ : Nat → Ev}
    (hσ : Fair σ) : ∃ q0 t q, start I k ef mb mem = some q0 ∧ run I mb ((List.range t).map σ) q0 = some q ∧ q.pc = .fin := by
  obtain ⟨dmax, R, hI⟩ := hG.ok
  obtain ⟨q0, a1, a2, -, a4, _⟩ := start_spec (k := k) hI hef hmb1 mem
  obtain ⟨t, q, b1, b2⟩ := ends hI hef hk hmb1 hmb _ a2 hσ (Nat.le_refl _)
  exact ⟨q0, t, q, a1, b1, b2⟩

/-! ### What is returned -/

/-- Whatever the device does in between: the ids are the `k` nearest, by the distances in the file, of the nodes visited, then the id 0 as
often as nodes are missing.  The nodes visited can be reached; no node is visited twice; an edge of a visited node was left aside only if
`ef` others were at least as good, or if the node was one of the last, at most half of the beam width. -/
theorem C90_answer {I : Index α} (hG : LGraph I) {k ef mb : Nat} (hk : 0 < k) (hef : 0 < ef) (hmb1 : 1 ≤ mb) (hmb : mb ≤ 1024) (mem : Nat → α) (es : List Ev)
    (hes : ∀ e ∈ es, Normal e) {q0 q : Q α} (h0 : start I k ef mb mem = some q0) (hr : run I mb es q0 = some q) (hpc : q.pc = .fin) :
    ∃ A B hits, B.length ≤ mb / 2 ∧ Explored I.starts (fileNbs I) I.fmax ef A (A ++ B) ∧ Nearest (fileDist I) k hits (A ++ B) ∧
      q.answer = hits ++ List.replicate (k - hits.length) 0 := by
  obtain ⟨dmax, R, hI⟩ := hG.ok
  obtain ⟨q0', a1, a2, a3, a4, _⟩ := start_spec (k := k) hI hef hmb1 mem
  rw [h0] at a1
  cases a1
  obtain ⟨q', E, b1, b2, b3⟩ := run_spec hI hef hk hmb1 hmb es hes a2 a4
  rw [hr] at b1
  cases b1
  obtain ⟨A, B, c1, c2, c3⟩ := b2.fin (by rw [hpc]; trivial)
  have hcnt := b2.cnt
  unfold CountOk at hcnt
  rw [hpc] at hcnt
  simp only at hcnt
  have o : q.ongoing = [] := List.length_eq_zero_iff.mp (by omega)
  have p : q.prepared = [] := List.length_eq_zero_iff.mp (by omega)
  have hv : visited q E = A ++ B := by
    unfold visited
    rw [o, p, hpc, c1]
    simp [cachedIds]
  rw [hv] at c3
  have n1 := b2.res.ids.1
  have hval : ∀ v ∈ E, v < I.n := fun v hv' => b2.valid v (by unfold visited; simp [hv'])
  rw [finite_all (fun v hv' => hI.exact v (hval v hv'))] at n1
  rw [c1] at n1
  exact ⟨A, B, q.res.ids k, by omega, c3, n1, answer_eq b2.res (run_pad es hr a3)⟩

/-- What follows for the caller: `k` ids of nodes.  First different reachable nodes, nearest first; after them the id 0. -/
theorem C90_ids {I : Index α} (hG : LGraph I) {k ef mb : Nat} (hk : 0 < k) (hef : 0 < ef) (hmb1 : 1 ≤ mb) (hmb : mb ≤ 1024) (mem : Nat → α) (es : List Ev)
    (hes : ∀ e ∈ es, Normal e) {q0 q : Q α} (h0 : start I k ef mb mem = some q0) (hr : run I mb es q0 = some q) (hpc : q.pc = .fin) :
    q.answer.length = k ∧ (∀ v ∈ q.answer, v < I.n) ∧ ∃ hits, q.answer = hits ++ List.replicate (k - hits.length) 0 ∧ hits.Nodup ∧
      hits.Pairwise (fun a b => fileDist I a ≤ fileDist I b) ∧ ∀ v ∈ hits, Reach I.starts (fileNbs I) v := by
  obtain ⟨A, B, hits, -, a2, a3, a4⟩ := C90_answer hG hk hef hmb1 hmb mem es hes h0 hr hpc
  obtain ⟨dmax, R, hI⟩ := hG.ok
  have hreach : ∀ v ∈ hits, Reach I.starts (fileNbs I) v := fun v hv => a2.reach v (Nearest.mem a3 hv)
  have hval : ∀ v, Reach I.starts (fileNbs I) v → v < I.n := by
    intro v hv
    induction hv with
    | start hs => exact hI.starts _ hs
    | step _ he ih => exact hG.edges _ ih _ he
  have hlen : hits.length ≤ k := by have := a3.2.1; omega
  refine ⟨by rw [a4, List.length_append, List.length_replicate]; omega, ?_, hits, a4, Nearest.nodup a3 a2.nodup, a3.1, hreach⟩
  intro v hv
  rw [a4] at hv
  rcases List.mem_append.mp hv with hv | hv
  · exact hval v (hreach v hv)
  · rw [(List.mem_replicate.mp hv).2]
    have := hG.entry
    omega

theorem C90_offers {I : Index α} {A : List Nat} (hn : A.Nodup) (hv : ∀ v ∈ A, v < I.n) :
    (offers I.starts (fileNbs I) I.fmax A).length ≤ I.starts.length + ((List.range I.n).flatMap (fileNbs I)).length := by
  unfold offers
  rw [List.length_append, List.length_map]
  have : A.Subperm (List.range I.n) := List.subperm_of_subset hn (fun v h => List.mem_range.mpr (hv v h))
  obtain ⟨l, h1, h2⟩ := this
  have h3 := (h2.flatMap (fileNbs I)).length_le
  have h4 := (h1.flatMap_right (fileNbs I)).length_eq
  omega

/-- With a beam width of 1 and room for all candidates nothing is missed and nothing depends on the device: the answer is the `k` nearest
of all nodes that can be reached. -/
theorem C90_exhaustive {I : Index α} (hG : LGraph I) {k ef : Nat} (hk : 0 < k) (mem : Nat → α) (es : List Ev)
    (hef : I.starts.length + ((List.range I.n).flatMap (fileNbs I)).length < ef)
    (hes : ∀ e ∈ es, Normal e) {q0 q : Q α} (h0 : start I k ef 1 mem = some q0) (hr : run I 1 es q0 = some q) (hpc : q.pc = .fin) :
    ∃ E hits, E.Nodup ∧ (∀ v, v ∈ E ↔ Reach I.starts (fileNbs I) v) ∧ Nearest (fileDist I) k hits E ∧
      q.answer = hits ++ List.replicate (k - hits.length) 0 := by
  obtain ⟨A, B, hits, a1, a2, a3, a4⟩ := C90_answer hG hk (by omega) (Nat.le_refl 1) (by omega) mem es hes h0 hr hpc
  have hB : B = [] := List.length_eq_zero_iff.mp (by omega)
  rw [hB, List.append_nil] at a2 a3
  obtain ⟨dmax, R, hI⟩ := hG.ok
  have hval : ∀ v, Reach I.starts (fileNbs I) v → v < I.n := by
    intro v hv
    induction hv with
    | start hs => exact hI.starts _ hs
    | step _ he ih => exact hG.edges _ ih _ he
  have hnot : ∀ d, ¬ Beaten I.starts (fileNbs I) I.fmax ef A A d := by
    rintro d ⟨P, h1, h2, -⟩
    have := h2.length_le
    have := C90_offers (I := I) a2.nodup (fun v hv => hval v (a2.reach v hv))
    omega
  refine ⟨A, hits, a2.nodup, fun v => ⟨a2.reach v, ?_⟩, a3, a4⟩
  intro hv
  induction hv with
  | start hs => exact (a2.first _ hs).resolve_right (hnot _)
  | step _ he ih => exact (a2.beam _ ih _ he).resolve_right (hnot _)

/-- The search starts at the entry point and at the medoid nearest to the query. -/
theorem C90_starts {I : Index α} (hm : ∃ m ∈ I.medoids, m.2 < I.fmax) :
    ∃ m ∈ I.medoids, (∀ m' ∈ I.medoids, m.2 ≤ m'.2) ∧ I.starts = [m.1, I.ep] := by
  have gen : ∀ (ms : List (Nat × Int)) (b : Nat × Int),
      let r := ms.foldl (fun (b : Nat × Int) m => if m.2 < b.2 then m else b) b
      (r = b ∨ r ∈ ms) ∧ r.2 ≤ b.2 ∧ ∀ m ∈ ms, r.2 ≤ m.2 := by
    intro ms
    induction ms with
    | nil => intro b; exact ⟨.inl rfl, Int.le_refl _, by simp⟩
    | cons x xs ih =>
      intro b
      have h := ih (if x.2 < b.2 then x else b)
      simp only [List.foldl_cons] at h ⊢
      obtain ⟨h1, h2, h3⟩ := h
      by_cases c : x.2 < b.2
      · rw [if_pos c] at h1 h2 h3 ⊢
        refine ⟨.inr ?_, by omega, ?_⟩
        · rcases h1 with h1 | h1
          · rw [h1]; simp
          · simp [h1]
        · intro m hm'
          rcases List.mem_cons.mp hm' with h | h
          · rw [h]; exact h2
          · exact h3 m h
      · rw [if_neg c] at h1 h2 h3 ⊢
        refine ⟨?_, h2, ?_⟩
        · rcases h1 with h1 | h1
          · exact .inl h1
          · exact .inr (by simp [h1])
        · intro m hm'
          rcases List.mem_cons.mp hm' with h | h
          · rw [h]; omega
          · exact h3 m h
  obtain ⟨h1, h2, h3⟩ := gen I.medoids (0, I.fmax)
  obtain ⟨m0, hm0, hlt⟩ := hm
  have hne : I.medoids ≠ [] := by intro h; rw [h] at hm0; cases hm0
  rcases h1 with h1 | h1
  · have := h3 m0 hm0
    rw [h1] at this
    simp only at this
    omega
  · refine ⟨_, h1, h3, ?_⟩
    unfold Index.starts bestMedoid
    rw [if_neg hne]
    rfl

theorem C90_starts_none {I : Index α} (hm : I.medoids = []) : I.starts = [I.ep] := by
  unfold Index.starts
  rw [if_pos hm]
  rfl

/-! ### The segment -/

theorem C90_labels {ids ps : List Nat} (h : ∀ p ∈ ps, p < ids.length) : ∃ ls, labelsOf ids ps = some ls ∧ ls.map some = ps.map (fun p => ids[p]?) := by
  induction ps with
  | nil => exact ⟨[], rfl, rfl⟩
  | cons p ps ih =>
    obtain ⟨ls, h1, h2⟩ := ih (fun x hx => h x (by simp [hx]))
    obtain ⟨l, hl⟩ : ∃ l, ids[p]? = some l := ⟨_, List.getElem?_eq_getElem (h p (by simp))⟩
    refine ⟨l :: ls, by unfold labelsOf; rw [hl, h1], by simp [h2, hl]⟩

/-- A call with its arguments and what the graph answers. -/
structure LCall where
  null : Bool
  topK : Nat
  ef : Nat
  beam : Nat
  inner : Nat → Nat → Nat → Option (List Nat)

def laserCalls : Searcher → List LCall → Searcher × List Out
  | s, [] => (s, [])
  | s, c :: cs =>
    let r := s.search c.null c.topK c.ef c.beam c.inner
    let t := laserCalls r.1 cs
    (t.1, r.2 :: t.2)

/-- The workspace is where it belongs. -/
def _root_.Alaya.Laser.Searcher.sound (s : Searcher) : Prop := s.stuck = false ∧ (s.last ≠ none → s.idle = true)

theorem C90_call {s : Searcher} (h : s.sound) {null : Bool} {topK ef beam : Nat} {inner : Nat → Nat → Nat → Option (List Nat)}
    (hin : ∃ ps, inner (min topK s.ids.length) (max ef (min topK s.ids.length)) beam = some ps ∧ ∀ p ∈ ps, p < s.ids.length) :
    ∃ s' out, s.search null topK ef beam inner = (s', out) ∧ s'.sound ∧ s'.ids = s.ids ∧
      ((topK = 0 ∨ null = true ∨ 2147483647 < beam) ∧ out = .badArg ∨
       ¬ (topK = 0 ∨ null = true ∨ 2147483647 < beam) ∧ ∃ ps ls, inner (min topK s.ids.length) (max ef (min topK s.ids.length)) beam = some ps ∧
        out = .hits ls ∧ ls.map some = ps.map (fun p => s.ids[p]?)) := by
  obtain ⟨ps, hps, hlt⟩ := hin
  unfold Searcher.search
  by_cases hb : topK = 0 ∨ null = true ∨ beam > 2147483647
  · rw [if_pos hb]
    exact ⟨s, .badArg, rfl, h, rfl, .inl ⟨hb, rfl⟩⟩
  · rw [if_neg hb, h.1]
    obtain ⟨ls, l1, l2⟩ := C90_labels hlt
    by_cases hl : s.last = some (max ef (min topK s.ids.length), beam)
    · have hi : s.idle = true := h.2 (by rw [hl]; simp)
      simp only [hl, if_true, hi, hps, l1, Bool.false_eq_true, if_false, reduceCtorEq]
      exact ⟨s, _, rfl, h, rfl, .inr ⟨hb, ps, ls, rfl, rfl, l2⟩⟩
    · simp only [hl, if_false, hps, l1, Bool.false_eq_true, reduceCtorEq]
      exact ⟨_, _, rfl, ⟨rfl, fun _ => rfl⟩, rfl, .inr ⟨hb, ps, ls, rfl, rfl, l2⟩⟩

/-- As long as no search of the graph leaves with an exception, every call returns: bad arguments are refused, the others get the labels of
the rows found. -/
theorem C90_segment {ids : List Nat} (cs : List LCall)
    (hcs : ∀ c ∈ cs, ∃ ps, c.inner (min c.topK ids.length) (max c.ef (min c.topK ids.length)) c.beam = some ps ∧ ∀ p ∈ ps, p < ids.length) :
    ∀ o ∈ (laserCalls (Searcher.opened ids) cs).2, o ≠ .hangs ∧ o ≠ .raised := by
  have main : ∀ (cs : List LCall) (s : Searcher), s.sound → s.ids = ids →
      (∀ c ∈ cs, ∃ ps, c.inner (min c.topK ids.length) (max c.ef (min c.topK ids.length)) c.beam = some ps ∧ ∀ p ∈ ps, p < ids.length) →
      ∀ o ∈ (laserCalls s cs).2, o ≠ .hangs ∧ o ≠ .raised := by
    intro cs
    induction cs with
    | nil => intro s _ _ _ o ho; cases ho
    | cons c cs ih =>
      intro s hs hid hc o ho
      obtain ⟨s', out, a1, a2, a3, a4⟩ := C90_call hs (null := c.null) (topK := c.topK) (ef := c.ef) (beam := c.beam) (inner := c.inner)
        (by rw [hid]; exact hc c (by simp))
      unfold laserCalls at ho
      simp only [a1] at ho
      rcases List.mem_cons.mp ho with ho | ho
      · rcases a4 with ⟨-, a4⟩ | ⟨-, ps, ls, -, a4, -⟩ <;> (rw [ho, a4]; simp)
      · exact ih s' a2 (by rw [a3, hid]) (fun c' hc' => hc c' (by simp [hc'])) o ho
  exact main cs _ ⟨rfl, fun h => absurd rfl h⟩ rfl hcs

/-- The whole call: a segment of `count` rows whose workspace is in place answers every well-formed query, for every fair behaviour of the
device, with `min topK count` labels: those of the nearest nodes visited, then the label of row 0. -/
theorem C90_query {I : Index α} (hG : LGraph I) {s : Searcher} (hs : s.sound) (hn : s.ids.length = I.n) {topK ef beam : Nat} (hk : 0 < topK)
    (hb1 : 1 ≤ beam) (hb : beam ≤ 1024) (mem : Nat → α) {σ : Nat → Ev} (hσ : Fair σ) :
    ∃ q0 t q, start I (min topK I.n) (max ef (min topK I.n)) beam mem = some q0 ∧ run I beam ((List.range t).map σ) q0 = some q ∧ q.pc = .fin ∧
      ∀ inner, inner (min topK I.n) (max ef (min topK I.n)) beam = some q.answer →
      ∃ A B hits ls, B.length ≤ beam / 2 ∧ Explored I.starts (fileNbs I) I.fmax (max ef (min topK I.n)) A (A ++ B) ∧
        Nearest (fileDist I) (min topK I.n) hits (A ++ B) ∧ (s.search false topK ef beam inner).2 = .hits ls ∧
        ls.map some = (hits ++ List.replicate (min topK I.n - hits.length) 0).map (fun p => s.ids[p]?) := by
  have hpos := hG.entry
  obtain ⟨q0, t, q, a1, a2, a3⟩ := C90_ends hG (k := min topK I.n) (ef := max ef (min topK I.n)) (by omega) (by omega) hb1 hb mem hσ
  have hes : ∀ e ∈ (List.range t).map σ, Normal e := by
    intro e he
    obtain ⟨i, -, rfl⟩ := List.mem_map.mp he
    exact hσ.normal i
  refine ⟨q0, t, q, a1, a2, a3, fun inner hin => ?_⟩
  obtain ⟨A, B, hits, b1, b2, b3, b4⟩ := C90_answer hG (by omega) (by omega) hb1 hb mem _ hes a1 a2 a3
  obtain ⟨-, c2, -⟩ := C90_ids hG (by omega) (by omega) hb1 hb mem _ hes a1 a2 a3
  obtain ⟨s', out, d1, -, -, d4⟩ := C90_call hs (null := false) (topK := topK) (ef := ef) (beam := beam) (inner := inner)
    ⟨q.answer, by rw [hn]; exact hin, by rw [hn]; exact c2⟩
  rw [d1]
  rcases d4 with ⟨d4, -⟩ | ⟨-, ps, ls, d4, d5, d6⟩
  · simp only [Bool.false_eq_true, false_or] at d4; omega
  · rw [hn, hin] at d4
    cases d4
    exact ⟨A, B, hits, ls, b1, b2, b3, d5, by rw [d6, b4]⟩

/-! ### A concrete index -/

/-- One node per page. -/
def laserIdx (rows : List Row) (medoids : List (Nat × Int)) (ep : Nat) : Index Row :=
  ⟨rows.length, 1, fun p => rows.getD p ⟨0, []⟩, fun x _ => x, fun _ => none, medoids, ep, 1000⟩

def laserOk (rows : List Row) (medoids : List (Nat × Int)) (ep : Nat) : Bool :=
  decide (rows.length ≤ 2147483648) && decide (ep < rows.length) && medoids.all (fun m => decide (m.1 < rows.length)) &&
    rows.all (fun r => r.nbs.all (fun e => decide (e.1 < rows.length)))

theorem laserIdx_graph {rows : List Row} {medoids : List (Nat × Int)} {ep : Nat} (h : laserOk rows medoids ep = true) : LGraph (laserIdx rows medoids ep) := by
  unfold laserOk at h
  simp only [Bool.and_eq_true, decide_eq_true_eq, List.all_eq_true] at h
  obtain ⟨⟨⟨h1, h2⟩, h3⟩, h4⟩ := h
  refine ⟨h1, h2, h3, ?_, ?_⟩
  · intro c hc e he
    have hc' : c < rows.length := hc
    have : fileNode (laserIdx rows medoids ep) c = rows[c] := by
      unfold fileNode laserIdx
      simp [List.getD, List.getElem?_eq_getElem hc']
    unfold fileNbs at he
    rw [this] at he
    exact h4 _ (List.getElem_mem hc') e he
  · intro c r hc
    cases hc

/-- Steps, each followed by the execution of the oldest read. -/
def laserFair (t : Nat) : Ev := if t % 2 = 0 then .step 9 else .complete 0

theorem laserFair_fair : Fair laserFair := by
  refine ⟨?_, ?_, ?_⟩
  · intro t
    unfold laserFair
    split <;> trivial
  · intro t
    exact ⟨2 * t, by omega, 9, by omega, by unfold laserFair; rw [if_pos (by omega)]⟩
  · intro t
    exact ⟨2 * t + 1, by omega, by unfold laserFair; rw [if_neg (by omega)]⟩

/-- Three nodes: 0 is the entry point and has no edges, 1 is the medoid and leads to 2. -/
def laserRows3 : List Row := [⟨50, []⟩, ⟨40, [(2, 7)]⟩, ⟨3, []⟩]

def laser3 : Index Row := laserIdx laserRows3 [(1, 5)] 0

theorem C90_case : LGraph laser3 := laserIdx_graph (by decide +kernel)

def laserRun (I : Index Row) (k ef mb : Nat) (mem : Nat → Row) (es : List Ev) : Option (Pc × List Nat) :=
  (start I k ef mb mem).bind (fun q => (run I mb es q).map (fun q' => (q'.pc, q'.answer)))

set_option maxRecDepth 100000 in
/-- With a beam of width 1 it finds node 2. -/
theorem C90_case_run : laserRun laser3 2 100 1 (fun _ => ⟨0, []⟩) ((List.range 60).map laserFair) = some (.fin, [2, 1]) := by decide +kernel

/-! ### What does not hold -/

set_option maxRecDepth 100000 in
/-- With a beam of width 2 the answer depends on which of two reads the device executes first: the edges of the node that comes last are
not followed, though there is room for 100 candidates. -/
theorem C90_complete_refuted :
    laserRun laser3 1 100 2 (fun _ => ⟨0, []⟩) (List.replicate 5 (.step 9) ++ .complete 0 :: List.replicate 4 (.step 9) ++ .complete 0 :: List.replicate 9 (.step 9)) = some (.fin, [1]) ∧
    laserRun laser3 1 100 2 (fun _ => ⟨0, []⟩) (List.replicate 5 (.step 9) ++ .complete 1 :: List.replicate 9 (.step 9) ++ .complete 0 :: .complete 0 :: List.replicate 9 (.step 9)) = some (.fin, [2]) := by
  decide +kernel

set_option maxRecDepth 100000 in
/-- When less than `k` nodes are visited, the id 0 is returned for those that are missing, even twice, though node 0 was not found. -/
theorem C90_missing_refuted :
    laserRun (laserIdx [⟨9, []⟩, ⟨8, []⟩, ⟨7, []⟩] [] 1) 3 10 1 (fun _ => ⟨0, []⟩) ((List.range 40).map laserFair) = some (.fin, [1, 0, 0]) := by
  decide +kernel

/-- Five nodes, all reachable from 0; 4 only from 2, with a bad estimate. -/
def laserRows5 : List Row := [⟨50, [(1, 1), (2, 2), (3, 3)]⟩, ⟨40, [(2, 2), (3, 3)]⟩, ⟨30, [(3, 3), (4, 90)]⟩, ⟨20, []⟩, ⟨1, []⟩]

set_option maxRecDepth 100000 in
/-- A pool with as many places as there are nodes does not make the search complete: a node can take several places. -/
theorem C90_ef_refuted : LGraph (laserIdx laserRows5 [] 0) ∧
    laserRun (laserIdx laserRows5 [] 0) 1 5 1 (fun _ => ⟨0, []⟩) ((List.range 200).map laserFair) = some (.fin, [3]) ∧
    laserRun (laserIdx laserRows5 [] 0) 1 9 1 (fun _ => ⟨0, []⟩) ((List.range 200).map laserFair) = some (.fin, [4]) :=
  ⟨laserIdx_graph (by decide +kernel), by decide +kernel, by decide +kernel⟩

set_option maxRecDepth 100000 in
/-- A read that fails is not noticed: the node is taken from what the buffer held before. -/
theorem C90_failed_refuted :
    laserRun (laserIdx [⟨1, [(1, 5)]⟩, ⟨5, []⟩] [] 0) 1 10 1 (fun _ => ⟨9, [(1, 5)]⟩) (List.replicate 4 (.step 9) ++ .failed 0 :: (List.range 40).map laserFair) = some (.fin, [1]) ∧
    laserRun (laserIdx [⟨1, [(1, 5)]⟩, ⟨5, []⟩] [] 0) 1 10 1 (fun _ => ⟨9, [(1, 5)]⟩) ((List.range 40).map laserFair) = some (.fin, [0]) := by
  decide +kernel

/-- More than 1024 requests at once are refused with an exception. -/
theorem C90_many_refuted (q : Q α) (reqs : List (Nat × Nat)) (cached : List Nat) (h : 1024 < reqs.length) : (submit q reqs cached).pc = .thrown := by
  unfold submit
  rw [if_pos (by unfold maxEvents; omega)]

/-- A beam width of 0: no search ends, whatever happens. -/
theorem C90_width_refuted {I : Index α} {k ef : Nat} {mem : Nat → α} {q0 : Q α} (h0 : start I k ef 0 mem = some q0) (hn : q0.pool.hasNext = true) (es : List Ev) :
    ∃ q, run I 0 es q0 = some q ∧ q.pc ≠ .fin ∧ q.pc ≠ .thrown := by
  have main : ∀ (es : List Ev) (q : Q α), q.pool.hasNext = true → q.flying = [] → q.prev = 0 → (q.pc = .top ∨ (q.pc = .collect [] [] ∧ q.beam = 0) ∨ q.pc = .cached 0 [] ∨ q.pc = .work 0) →
      ∃ q', run I 0 es q = some q' ∧ q'.pc ≠ .fin ∧ q'.pc ≠ .thrown := by
    intro es
    induction es with
    | nil =>
      intro q _ _ _ hpc
      refine ⟨q, rfl, ?_⟩
      rcases hpc with h | ⟨h, -⟩ | h | h <;> (rw [h]; simp)
    | cons e es ih =>
      intro q h1 h2 h3 hpc
      cases e with
      | complete i =>
        have : event I 0 q (.complete i) = some q := by unfold event; simp [h2]
        unfold run; rw [this]; exact ih q h1 h2 h3 hpc
      | failed i =>
        have : event I 0 q (.failed i) = some q := by unfold event; simp [h2]
        unfold run; rw [this]; exact ih q h1 h2 h3 hpc
      | refuse =>
        have : event I 0 q .refuse = some q := by
          unfold event
          rcases hpc with h | ⟨h, -⟩ | h | h <;> simp [h]
        unfold run; rw [this]; exact ih q h1 h2 h3 hpc
      | step j =>
        unfold run
        rcases hpc with h | ⟨h, hb⟩ | h | h
        · have : event I 0 q (.step j) = some { q with beam := 0, pc := .collect [] [] } := by
            unfold event prog; simp [h, h1]
          rw [this]
          exact ih _ h1 h2 h3 (.inr (.inl ⟨rfl, rfl⟩))
        · have : event I 0 q (.step j) = some { q with pc := .cached 0 [] } := by
            unfold event prog; simp [h, hb, submit, h2]
          rw [this]
          exact ih _ h1 h2 h3 (.inr (.inr (.inl rfl)))
        · have : event I 0 q (.step j) = some { q with pc := .work 0, prev := 0 } := by
            unfold event prog; simp [h, h3]
          rw [this]
          exact ih _ h1 h2 rfl (.inr (.inr (.inr rfl)))
        · have : event I 0 q (.step j) = some { q with pc := .top } := by
            unfold event prog; simp [h]
          rw [this]
          exact ih _ h1 h2 h3 (.inl rfl)
  unfold Laser.start at h0
  cases hp : startPool I ef with
  | none => rw [hp] at h0; cases h0
  | some p =>
    rw [hp] at h0
    cases h0
    exact main es _ hn rfl rfl (.inl rfl)

theorem C90_width_case : ∃ q0, start laser3 1 10 0 (fun _ => ⟨0, []⟩) = some q0 ∧ q0.pool.hasNext = true := by
  have h : (start laser3 1 10 0 (fun _ => ⟨0, []⟩)).map (fun q => q.pool.hasNext) = some true := by decide +kernel
  obtain ⟨q, h1, h2⟩ := Option.map_eq_some_iff.mp h
  exact ⟨q, h1, h2⟩

/-- After a search of the graph has left with an exception, the same call again does not return, and no later well-formed call does. -/
theorem C90_hang_refuted (ids : List Nat) (topK ef beam : Nat) (hk : 0 < topK) (hb : beam ≤ 2147483647) (cs : List LCall)
    (hcs : ∀ c ∈ cs, 0 < c.topK ∧ c.null = false ∧ c.beam ≤ 2147483647) (inner : Nat → Nat → Nat → Option (List Nat)) :
    ∀ o ∈ (laserCalls (Searcher.opened ids) (⟨false, topK, ef, beam, fun _ _ _ => none⟩ :: ⟨false, topK, ef, beam, inner⟩ :: cs)).2.tail, o = .hangs := by
  have hno : ¬ (topK = 0 ∨ false = true ∨ beam > 2147483647) := by simp; omega
  have stuck : ∀ (cs : List LCall) (s : Searcher), s.stuck = true → (∀ c ∈ cs, 0 < c.topK ∧ c.null = false ∧ c.beam ≤ 2147483647) →
      ∀ o ∈ (laserCalls s cs).2, o = .hangs := by
    intro cs
    induction cs with
    | nil => intro s _ _ o ho; cases ho
    | cons c cs ih =>
      intro s hs hc o ho
      obtain ⟨c1, c2, c3⟩ := hc c (by simp)
      have hn : ¬ (c.topK = 0 ∨ c.null = true ∨ c.beam > 2147483647) := by rw [c2]; simp; omega
      have : s.search c.null c.topK c.ef c.beam c.inner = (s, .hangs) := by
        unfold Searcher.search
        rw [if_neg hn, if_pos hs]
      unfold laserCalls at ho
      simp only [this] at ho
      rcases List.mem_cons.mp ho with ho | ho
      · exact ho
      · exact ih s hs (fun c' hc' => hc c' (by simp [hc'])) o ho
  have e1 : (Searcher.opened ids).search false topK ef beam (fun _ _ _ => none) =
      (⟨ids, some (max ef (min topK ids.length), beam), false, false⟩, .raised) := by
    unfold Searcher.search
    rw [if_neg hno]
    simp [Searcher.opened]
  have e2 : (⟨ids, some (max ef (min topK ids.length), beam), false, false⟩ : Searcher).search false topK ef beam inner =
      (⟨ids, some (max ef (min topK ids.length), beam), false, true⟩, .hangs) := by
    unfold Searcher.search
    rw [if_neg hno]
    simp
  intro o ho
  unfold laserCalls at ho
  simp only [e1, List.tail_cons] at ho
  unfold laserCalls at ho
  simp only [e2] at ho
  rcases List.mem_cons.mp ho with ho | ho
  · exact ho
  · exact stuck cs _ rfl hcs o ho

/-- Other options after an exception make a new workspace. -/
theorem C90_recovers : (laserCalls (Searcher.opened [70, 71]) [⟨false, 1, 10, 4, fun _ _ _ => none⟩, ⟨false, 1, 11, 4, fun _ _ _ => some [1]⟩, ⟨true, 1, 1, 1, fun _ _ _ => none⟩]).2 =
    [.raised, .hits [71], .badArg] := by decide +kernel

end Alaya.Props
