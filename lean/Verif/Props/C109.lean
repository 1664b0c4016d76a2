import Mathlib.Data.List.Nodup
import Verif.Model.UringBatch

/-!
# C109: a batch through io_uring submits a prefix of the requests, each once, and says how many

Model: Model/UringBatch.lean.  What fails is in C109Limits.lean.
-/

namespace Alaya.UBatch

theorem prepare_spec (l : List Nat) : ∀ (r : Ring), r.sq.length + l.length ≤ r.entries →
    (prepare r l).2 = l.length ∧ (prepare r l).1.sq = r.sq ++ l ∧ (prepare r l).1.flight = r.flight ∧ (prepare r l).1.entries = r.entries ∧
      ∀ q, (prepare r l).1.res q = if q ∈ l then 0 else r.res q := by
  induction l with
  | nil => intro r _; simp [prepare]
  | cons a t ih =>
    intro r h
    simp only [List.length_cons] at h
    obtain ⟨h1, h2, h3, h4, h5⟩ := ih { r with sq := r.sq ++ [a], res := Function.update r.res a 0 } (by simp; omega)
    have hlt : r.sq.length < r.entries := by omega
    simp only [prepare, hlt, if_true]
    refine ⟨by simp [h1], by simp [h2], h3, h4, ?_⟩
    intro q
    rw [h5 q]
    by_cases hq : q = a
    · subst hq; simp
    · simp [hq]

/-- What `submit_chunk` gives after `k` requests of the chunk were taken. -/
structure ChunkOut (chunk : List Nat) (as : List (Option Nat)) (done total : Nat) (r : Ring) (out : Ring × Nat × Bool × List (Option Nat)) (k : Nat) :
    Prop where
  ge : done ≤ k
  le : k ≤ chunk.length
  total : out.2.1 + done = total + k
  flight : out.1.flight = r.flight ++ (chunk.drop done).take (k - done)
  entries : out.1.entries = r.entries
  sq : out.1.sq = chunk.drop k
  good : out.2.2.1 = true → k = chunk.length ∧ out.1.res = r.res
  bad : out.2.2.1 = false → k < chunk.length ∧ ∀ q, out.1.res q = if q ∈ chunk.drop k then notSubmitted else r.res q
  all : (∀ a ∈ as, ∃ s, a = some (s + 1)) → chunk.length ≤ done + as.length →
    out.2.2.1 = true ∧ (∀ a ∈ out.2.2.2, ∃ s, a = some (s + 1)) ∧ as.length + done ≤ out.2.2.2.length + chunk.length

theorem submitChunk_spec (chunk : List Nat) : ∀ (as : List (Option Nat)) (done total : Nat) (r : Ring), done ≤ chunk.length →
    r.sq = chunk.drop done → ∃ k, ChunkOut chunk as done total r (submitChunk chunk as done total r) k := by
  intro as
  induction as with
  | nil =>
    intro done total r hd hsq
    by_cases h : done < chunk.length
    · rw [show submitChunk chunk [] done total r = (mark r (chunk.drop done), total, false, []) by simp [submitChunk, h]]
      exact ⟨done, ⟨Nat.le_refl _, hd, rfl, by simp [mark], rfl, hsq, by simp, fun _ => ⟨h, fun q => rfl⟩,
        fun _ hl => by simp at hl; omega⟩⟩
    · rw [show submitChunk chunk [] done total r = (r, total, true, []) by simp [submitChunk, h]]
      exact ⟨done, ⟨Nat.le_refl _, hd, rfl, by simp, rfl, hsq, fun _ => ⟨by omega, rfl⟩, by simp, fun _ _ => ⟨rfl, by simp, by simp; omega⟩⟩⟩
  | cons a as ih =>
    intro done total r hd hsq
    by_cases h : done < chunk.length
    · have hfail : (¬ ∃ s, a = some (s + 1)) → submitChunk chunk (a :: as) done total r = (mark r (chunk.drop done), total, false, as) →
          ∃ k, ChunkOut chunk (a :: as) done total r (submitChunk chunk (a :: as) done total r) k := by
        intro hbad he
        rw [he]
        exact ⟨done, ⟨Nat.le_refl _, hd, rfl, by simp [mark], rfl, hsq, by simp, fun _ => ⟨h, fun q => rfl⟩,
          fun hall _ => absurd (hall a (by simp)) hbad⟩⟩
      cases a with
      | none => exact hfail (by simp) (by simp [submitChunk, h])
      | some s =>
        have hlen : r.sq.length = chunk.length - done := by rw [hsq]; simp
        cases s with
        | zero => exact hfail (by simp) (by simp [submitChunk, h])
        | succ s =>
          have ht : min (s + 1) r.sq.length ≠ 0 := by omega
          have hle : min (s + 1) r.sq.length ≤ chunk.length - done := by omega
          have hstep : submitChunk chunk (some (s + 1) :: as) done total r =
              submitChunk chunk as (done + min (s + 1) r.sq.length) (total + min (s + 1) r.sq.length)
                { r with sq := r.sq.drop (min (s + 1) r.sq.length), flight := r.flight ++ r.sq.take (min (s + 1) r.sq.length) } := by
            rw [submitChunk]
            simp only [h, if_true, if_neg ht]
          rw [hstep]
          generalize min (s + 1) r.sq.length = t at ht hle
          obtain ⟨k, hk⟩ := ih (done + t) (total + t)
            { r with sq := r.sq.drop t, flight := r.flight ++ r.sq.take t } (by omega) (by simp [hsq])
          have k1 := hk.ge
          have k3 := hk.total
          refine ⟨k, ⟨by omega, hk.le, by omega, ?_, hk.entries, hk.sq, hk.good, hk.bad, ?_⟩⟩
          · rw [hk.flight]
            simp only [hsq, List.append_assoc, List.append_cancel_left_eq]
            have : k - done = t + (k - (done + t)) := by omega
            rw [this, List.take_add, List.drop_drop]
          · intro hall hl
            simp only [List.length_cons] at hl
            obtain ⟨e1, e2, e3⟩ := hk.all (fun x hx => hall x (by simp [hx])) (by omega)
            exact ⟨e1, e2, by simp only [List.length_cons]; omega⟩
    · rw [show submitChunk chunk (a :: as) done total r = (r, total, true, a :: as) by simp [submitChunk, h]]
      exact ⟨done, ⟨Nat.le_refl _, hd, rfl, by simp, rfl, hsq, fun _ => ⟨by omega, rfl⟩, by simp,
        fun hall _ => ⟨rfl, hall, by simp; omega⟩⟩⟩

/-- What a batch leaves behind. -/
structure Done (r0 : Ring) (reqs : List Nat) (r : Ring) (total : Nat) : Prop where
  le : total ≤ reqs.length
  flight : r.flight = r0.flight ++ reqs.take total
  sent : ∀ q ∈ reqs.take total, r.res q = 0
  unsent : ∀ q ∈ reqs.drop total, r.res q = notSubmitted
  other : ∀ q, q ∉ reqs → r.res q = r0.res q

theorem batchLoop_spec (depth : Nat) (hd : 0 < depth) (r0 : Ring) (reqs : List Nat) (hnd : reqs.Nodup) : ∀ (fuel : Nat) (as : List (Option Nat)) (n : Nat)
    (r : Ring), depth ≤ r.entries → r.sq = [] → reqs.length - n ≤ fuel → Done r0 reqs r n →
    Done r0 reqs (batchLoop depth fuel (reqs.drop n) as n r).1 (batchLoop depth fuel (reqs.drop n) as n r).2 ∧
      ((∀ a ∈ as, ∃ s, a = some (s + 1)) → reqs.length ≤ n + as.length →
        (batchLoop depth fuel (reqs.drop n) as n r).2 = reqs.length ∧ (batchLoop depth fuel (reqs.drop n) as n r).1.sq = []) := by
  intro fuel
  induction fuel with
  | zero =>
    intro as n r _ hsq hf hdone
    simp only [batchLoop]
    have := hdone.le
    exact ⟨hdone, fun _ _ => ⟨by omega, hsq⟩⟩
  | succ fuel ih =>
    intro as n r he hsq hf hdone
    have hn := hdone.le
    unfold batchLoop
    by_cases hnil : reqs.drop n = []
    · have hlen : n = reqs.length := by
        have := congrArg List.length hnil
        simp at this
        omega
      simp only [hnil, if_true]
      exact ⟨hdone, fun _ _ => ⟨hlen, hsq⟩⟩
    · have hpos : 0 < (reqs.drop n).length := List.length_pos_iff.mpr hnil
      rw [if_neg hnil]
      generalize hrest : reqs.drop n = rest at hnil hpos
      have hrl : rest.length = reqs.length - n := by rw [← hrest]; simp
      generalize hm : min depth rest.length = m
      have hmle : m ≤ rest.length := by omega
      have hm0 : 0 < m := by omega
      have hcl : (rest.take m).length = m := by simp [hmle]
      obtain ⟨p1, p2, p3, p4, p5⟩ := prepare_spec (rest.take m) r (by rw [hsq, hcl]; simp; omega)
      rw [hcl] at p1
      rw [hsq, List.nil_append] at p2
      dsimp only
      generalize prepare r (rest.take m) = pr at p1 p2 p3 p4 p5 ⊢
      obtain ⟨r1, pn⟩ := pr
      dsimp only at p1 p2 p3 p4 p5 ⊢
      subst p1
      rw [if_neg (show ¬ pn = 0 by omega)]
      obtain ⟨k, k1, k2, k3, k4, k5, k6, k7, k8, k9⟩ := submitChunk_spec (rest.take pn) as 0 n r1 (by omega) (by simpa using p2)
      rw [hcl] at k2 k7 k8 k9
      simp only [Nat.add_zero, List.drop_zero, Nat.sub_zero, List.take_take] at k3 k4
      rw [Nat.min_eq_left k2, p3] at k4
      -- the requests of this round
      have hmem : ∀ q ∈ rest, q ∈ reqs := fun q hq => (List.drop_sublist n reqs).subset (hrest ▸ hq)
      have htake : reqs.take (n + k) = reqs.take n ++ rest.take k := by rw [List.take_add, hrest]
      have hdrop : reqs.drop (n + k) = rest.drop k := by rw [← List.drop_drop, hrest]
      have hsplit : reqs = reqs.take n ++ rest := by rw [← hrest]; exact (List.take_append_drop n reqs).symm
      have hdis : ∀ q ∈ reqs.take n, q ∉ rest := by
        intro q h1 h2
        rw [hsplit] at hnd
        exact (List.nodup_append.mp hnd).2.2 q h1 q h2 rfl
      have hndr : rest.Nodup := hrest ▸ (List.drop_sublist n reqs).nodup hnd
      have hdk : ∀ j, ∀ q ∈ rest.take j, q ∉ rest.drop j := by
        intro j q h1 h2
        have : (rest.take j ++ rest.drop j).Nodup := by rw [List.take_append_drop]; exact hndr
        exact (List.nodup_append.mp this).2.2 q h1 q h2 rfl
      have r1old : ∀ q, q ∉ rest → r1.res q = r.res q := by
        intro q hq
        rw [p5 q, if_neg (fun h => hq ((List.take_sublist _ _).subset h))]
      generalize submitChunk (rest.take pn) as 0 n r1 = sc at k3 k4 k5 k6 k7 k8 k9 ⊢
      obtain ⟨r2, total2, ok, as2⟩ := sc
      dsimp only at k3 k4 k5 k6 k7 k8 k9 ⊢
      subst k3
      have hflight : r2.flight = r0.flight ++ reqs.take (n + k) := by rw [k4, hdone.flight, htake, List.append_assoc]
      cases ok with
      | false =>
        dsimp only
        obtain ⟨hk, hres⟩ := k8 rfl
        refine ⟨⟨by omega, hflight, ?_, ?_, ?_⟩, fun hall hl => ?_⟩
        · intro q hq
          rw [htake] at hq
          rw [hres q]
          rcases List.mem_append.mp hq with hq | hq
          · have hnr := hdis q hq
            rw [if_neg (fun h => hnr ((List.take_sublist _ _).subset ((List.drop_sublist _ _).subset h))), r1old q hnr]
            exact hdone.sent q hq
          · have hin : q ∈ rest.take pn := (List.take_sublist_take_left (by omega : k ≤ pn)).subset hq
            have hno : q ∉ (rest.take pn).drop k := fun h => hdk k q hq (by
              rw [List.drop_take] at h
              exact (List.take_sublist _ _).subset h)
            rw [if_neg hno, p5 q, if_pos hin]
        · intro q hq
          rw [hdrop] at hq
          rw [hres q]
          by_cases h : q ∈ (rest.take pn).drop k
          · rw [if_pos h]
          · rw [if_neg h]
            have hnt : q ∉ rest.take pn := by
              intro h2
              rw [← List.take_append_drop k (rest.take pn)] at h2
              rcases List.mem_append.mp h2 with h2 | h2
              · rw [List.take_take, Nat.min_eq_left (by omega : k ≤ pn)] at h2
                exact hdk k q h2 hq
              · exact h h2
            rw [p5 q, if_neg hnt]
            exact hdone.unsent q (hrest ▸ (List.drop_sublist _ _).subset hq)
        · intro q hq
          have hnr : q ∉ rest := fun h => hq (hmem q h)
          rw [hres q, if_neg (fun h => hnr ((List.take_sublist _ _).subset ((List.drop_sublist _ _).subset h))), r1old q hnr]
          exact hdone.other q hq
        · have := (k9 hall (by omega)).1
          exact absurd this (by simp)
      | true =>
        dsimp only
        obtain ⟨hk, hres⟩ := k7 rfl
        subst hk
        have hdone2 : Done r0 reqs r2 (n + k) := by
          refine ⟨by omega, hflight, ?_, ?_, ?_⟩
          · intro q hq
            rw [htake] at hq
            rw [hres]
            rcases List.mem_append.mp hq with hq | hq
            · rw [r1old q (hdis q hq)]; exact hdone.sent q hq
            · rw [p5 q, if_pos hq]
          · intro q hq
            rw [hdrop] at hq
            rw [hres, p5 q, if_neg (fun h => hdk k q h hq)]
            exact hdone.unsent q (hrest ▸ (List.drop_sublist _ _).subset hq)
          · intro q hq
            rw [hres, r1old q (fun h => hq (hmem q h))]
            exact hdone.other q hq
        have hsq2 : r2.sq = [] := by rw [k6]; simp
        obtain ⟨g1, g2⟩ := ih as2 (n + k) r2 (by omega) hsq2 (by omega) hdone2
        rw [hdrop] at g1 g2
        refine ⟨g1, fun hall hl => ?_⟩
        obtain ⟨_, e2, e3⟩ := k9 hall (by omega)
        exact g2 e2 (by omega)

/-- A batch on a ring without prepared entries, whatever the kernel answers: the number returned is that of the requests submitted, which are the first
ones, each once and in order; the others are marked as not submitted. -/
theorem C109_prefix (depth : Nat) (hd : 0 < depth) (reqs : List Nat) (hnd : reqs.Nodup) (as : List (Option Nat)) (r : Ring) (he : depth ≤ r.entries)
    (hsq : r.sq = []) : ∃ total ≤ reqs.length, (submitBatch depth reqs as r).2 = total ∧
      (submitBatch depth reqs as r).1.flight = r.flight ++ reqs.take total ∧
      (∀ q ∈ reqs.take total, (submitBatch depth reqs as r).1.res q = 0) ∧
      (∀ q ∈ reqs.drop total, (submitBatch depth reqs as r).1.res q = -2147483648) ∧
      ∀ q, q ∉ reqs → (submitBatch depth reqs as r).1.res q = r.res q := by
  have h0 : Done r reqs (mark r reqs) 0 := ⟨by omega, by simp [mark], by simp, by intro q hq; simp at hq; simp [mark, hq], by intro q hq; simp [mark, hq]⟩
  have h := (batchLoop_spec depth hd r reqs hnd reqs.length as 0 (mark r reqs) he hsq (by omega) h0).1
  rw [List.drop_zero] at h
  exact ⟨_, h.le, rfl, h.flight, h.sent, h.unsent, h.other⟩

/-- If every submission takes something, in however many pieces, the whole batch is submitted and the ring can be used again. -/
theorem C109_complete (depth : Nat) (hd : 0 < depth) (reqs : List Nat) (hnd : reqs.Nodup) (as : List (Option Nat)) (r : Ring) (he : depth ≤ r.entries)
    (hsq : r.sq = []) (hall : ∀ a ∈ as, ∃ s, a = some (s + 1)) (hl : reqs.length ≤ as.length) :
    (submitBatch depth reqs as r).2 = reqs.length ∧ (submitBatch depth reqs as r).1.sq = [] ∧
      (submitBatch depth reqs as r).1.flight = r.flight ++ reqs := by
  have h0 : Done r reqs (mark r reqs) 0 := ⟨by omega, by simp [mark], by simp, by intro q hq; simp at hq; simp [mark, hq], by intro q hq; simp [mark, hq]⟩
  have h := batchLoop_spec depth hd r reqs hnd reqs.length as 0 (mark r reqs) he hsq (by omega) h0
  rw [List.drop_zero] at h
  obtain ⟨e1, e2⟩ := h.2 hall (by omega)
  refine ⟨e1, e2, ?_⟩
  have := h.1.flight
  rw [e1, List.take_length] at this
  exact this

/-- Completions in any order: each request gets its own result, the others keep theirs. -/
theorem C109_results (l : List (Nat × Int)) : ∀ (r : Ring), (l.map Prod.fst).Nodup → (l.map Prod.fst).Perm r.flight →
    (reap r l).flight = [] ∧ (∀ x ∈ l, (reap r l).res x.1 = x.2) ∧ ∀ q, q ∉ l.map Prod.fst → (reap r l).res q = r.res q := by
  induction l with
  | nil => intro r _ hp; exact ⟨by simpa [reap] using hp.symm.eq_nil, by simp, by simp [reap]⟩
  | cons x t ih =>
    intro r hnd hp
    simp only [List.map_cons, List.nodup_cons] at hnd hp
    have hp' : (t.map Prod.fst).Perm (r.flight.erase x.1) := by
      have := hp.erase x.1
      simpa using this
    obtain ⟨h1, h2, h3⟩ := ih { r with flight := r.flight.erase x.1, res := Function.update r.res x.1 x.2 } hnd.2 hp'
    refine ⟨h1, ?_, ?_⟩
    · intro y hy
      rcases List.mem_cons.mp hy with rfl | hy
      · have := h3 y.1 hnd.1
        simpa [reap] using this
      · exact h2 y hy
    · intro q hq
      simp only [List.map_cons, List.mem_cons, not_or] at hq
      have := h3 q hq.2
      rw [show reap r (x :: t) = reap { r with flight := r.flight.erase x.1, res := Function.update r.res x.1 x.2 } t from rfl, this]
      simp [hq.1]

/-- Five requests, two at a time; the kernel takes one, one, two, then fails. -/
example : (fun x : Ring × Nat => (x.2, x.1.flight, x.1.sq, [0, 1, 2, 3, 4].map x.1.res))
    (submitBatch 2 [0, 1, 2, 3, 4] [some 1, some 1, some 2, none] ⟨[], [], fun _ => 7, 2⟩)
    = (4, [0, 1, 2, 3], [4], [0, 0, 0, 0, -2147483648]) := by decide +kernel

end Alaya.UBatch
