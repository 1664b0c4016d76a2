import Verif.Props.C64

/-
C65: the neighbour scratch of a search thread is never exhausted and stays consistent from query to query, as long as the search list
fits; it is exhausted when it does not.
-/
namespace Alaya.DiskBeam
open Alaya Alaya.Pools Alaya.Spec Alaya.DiskBeam.Spec

/-- No exception and nothing undefined; what is returned leaves the scratch ready for the next query. -/
def Reusable (enough : Prop) : Except Err (List (Nat × Int) × TD) → Prop
  | .ok p => Clean p.2
  | .error e => e = .stuck ∨ (e = .fuel ∧ ¬ enough)

/-- Pipelined: reads succeed and return at most `degree` neighbours, anything else is arbitrary. -/
theorem C65_pipelined_partial (c : Ctx) (topK l inner fuel : Nat) (t : TD) (r : Rec) (env : List Ans) (hm : c.medoid < c.n)
    (hb : c.n ≤ c.bits) (hl : max l topK ≤ c.regions) (hr : r.nbrs.length ≤ c.degree) (hc : Clean t)
    (henv : ∀ a ∈ env, AnsOk False (fun _ r => r.nbrs.length ≤ c.degree) a) :
    Reusable (c.n ≤ inner ∧ env.length < fuel) (greedyPipe c topK l inner fuel t (some r) env) := by
  unfold greedyPipe
  obtain ⟨t1, own, e1, _, h1, hM1⟩ := seed_mem hc hm hb hl hr (fun _ => r.nbrs) rfl
  have S := mok_steps c (max l topK) hb hl
  rw [e1]
  simp only
  have hsl : max 1 c.slots ≠ 0 := by have := Nat.le_max_left 1 c.slots; omega
  have h2 := advance_safe S (inner := inner) hsl (p := ⟨t1, [], [], max 1 c.slots, env⟩) ⟨⟨0, _, _, _, _, h1, hM1, rfl⟩, rfl, henv⟩
  cases e2 : advance c inner ⟨t1, [], [], max 1 c.slots, env⟩ with
  | error e => rw [e2] at h2; exact okErr_exactly h2 (fun w q => q w.1)
  | ok p =>
    rw [e2] at h2
    simp only
    have h3 := pipeLoop_safe S (inner := inner) hsl fuel h2.1
    cases e3 : pipeLoop c inner fuel p with
    | error e =>
      rw [e3] at h3
      refine okErr_exactly h3 (fun w q => q ⟨w.1, .inl ?_⟩)
      have := h2.2.1
      simp only at this
      omega
    | ok t2 =>
      rw [e3] at h3
      obtain ⟨⟨k, _, _, _, _, _, hM, _⟩, _⟩ := h3
      exact hM.clean

/-- Deterministic. -/
theorem C65_deterministic_partial (c : Ctx) (topK l fuel : Nat) (t : TD) (r : Rec) (env : List (Nat → Option Rec)) (hm : c.medoid < c.n)
    (hb : c.n ≤ c.bits) (hl : max l topK ≤ c.regions) (hr : r.nbrs.length ≤ c.degree) (hc : Clean t)
    (henv : ∀ f ∈ env, FunOk False (fun _ r => r.nbrs.length ≤ c.degree) f) :
    Reusable (c.n ≤ fuel) (greedyDet c topK l fuel t (some r) env) := by
  unfold greedyDet
  obtain ⟨t1, own, e1, _, h1, hM1⟩ := seed_mem hc hm hb hl hr (fun _ => r.nbrs) rfl
  have S := mok_steps c (max l topK) hb hl
  rw [e1]
  simp only
  have h3 := detLoop_safe S fuel (k := 0) ⟨_, _, _, _, h1, hM1, rfl⟩ henv
  cases e3 : detLoop c fuel t1 env with
  | error e => rw [e3] at h3; exact okErr_exactly h3 (fun w q => q (by omega))
  | ok t2 =>
    rw [e3] at h3
    obtain ⟨⟨k, _, _, _, _, _, hM, _⟩, _⟩ := h3
    exact hM.clean

/-! `load` sizes the scratch with max(100, update_search_l, scratch_search_list_size) regions (diskann_index.hpp:375-386); a query with
a larger `top_k` gets a list of `top_k` entries. -/

/-- 102 nodes in a chain, 100 regions. -/
def chainCtx : Ctx := ⟨102, fun _ => false, 0, 32, 100, 4, 102⟩
def chainG (i : Nat) : Rec := ⟨i, [i + 1]⟩

/-- `search(query, 101, …)` with default parameters on a healthy index of 102 nodes fails with "neighbor scratch exhausted". -/
theorem C65_large_topk_refuted : Setting chainCtx chainG 100 exTD ∧
    (∀ f ∈ List.replicate 101 (fun i => some (chainG i)), FunOk False (fun m r => r = chainG m) f) ∧
    (match greedyDet chainCtx 101 100 102 exTD (some (chainG 0)) (List.replicate 101 (fun i => some (chainG i))) with
      | .error .thrown => true
      | _ => false) = true ∧
    (match greedyPipe chainCtx 101 100 102 300 exTD (some (chainG 0)) (List.replicate 101 (Ans.hit chainG)) with
      | .error .thrown => true
      | _ => false) = true := by
  refine ⟨⟨by decide, by decide, by decide, fun i => (by show 1 ≤ 4; decide), fun i hi => absurd rfl hi⟩, ?_, by decide +kernel, by decide +kernel⟩
  intro f hf
  rw [(List.mem_replicate.mp hf).2]
  intro m; rfl

/-- With `top_k = 100` the same search succeeds. -/
example : (listOf (resultOf (greedyDet chainCtx 100 100 102 exTD (some (chainG 0))
    (List.replicate 101 (fun i => some (chainG i)))))).map List.length = some 100 := by decide +kernel

end Alaya.DiskBeam
