import Verif.Lemmas.DiskBeamMem
import Verif.Props.C56

/-
C64: on a graph that does not change during the search, with a search list long enough for the reachable live nodes, the exact disk
search returns exactly the `top_k` nearest of them, whatever the order of completions and whatever the caches hold.
-/
namespace Alaya.DiskBeam
open Alaya Alaya.Pools Alaya.Spec Alaya.DiskBeam.Spec

/-- Nothing is thrown; when something is returned it is exact. -/
def Exactly (c : Ctx) (G : Nat → Rec) (topK : Nat) (enough : Prop) : Except Err (List (Nat × Int)) → Prop
  | .ok out => ExactTopK c.n c.dead (fun i => (G i).nbrs) (fun i => (G i).dist) c.medoid topK out
  | .error e => e = .stuck ∨ (e = .fuel ∧ ¬ enough)

/-- The setting: arrays cover the ids, `list` regions, degrees within the limit, the previous query left the scratch consistent. -/
structure Setting (c : Ctx) (G : Nat → Rec) (list : Nat) (t : TD) : Prop where
  medoid : c.medoid < c.n
  bits : c.n ≤ c.bits
  regions : list ≤ c.regions
  degree : ∀ i, (G i).nbrs.length ≤ c.degree
  clean : Clean t

theorem okErr_exactly {fu enough : Prop} {e : Err} (h : okErr False fu e) (hf : enough → ¬ fu) : e = .stuck ∨ (e = .fuel ∧ ¬ enough) := by
  cases e with
  | thrown => exact h.elim
  | ub => exact h.elim
  | stuck => exact .inl rfl
  | fuel => exact .inr ⟨rfl, fun q => hf q h⟩

/-- Pipelined, any completion order: every event carries the record of its node. -/
theorem C64_pipelined (c : Ctx) (G : Nat → Rec) (topK l inner fuel : Nat) (t : TD) (env : List Ans) (hs : Setting c G (max l topK) t)
    (all : List Nat) (hall : ∀ i, LiveReach c.n c.dead (fun i => (G i).nbrs) c.medoid i → i ∈ all) (hlen : all.length ≤ max l topK)
    (henv : ∀ a ∈ env, AnsOk False (fun m r => r = G m) a) :
    Exactly c G topK (c.n ≤ inner ∧ env.length < fuel) (resultOf (greedyPipe c topK l inner fuel t (some (G c.medoid)) env)) := by
  unfold greedyPipe
  obtain ⟨t1, e1, h1⟩ := seed_x hs.clean hs.medoid hs.bits hs.regions G hs.degree
  have S := xok_steps c G (max l topK) hs.bits hs.regions hs.degree
  rw [e1]
  simp only
  have hsl : max 1 c.slots ≠ 0 := by have := Nat.le_max_left 1 c.slots; omega
  have h2 := advance_safe S (inner := inner) hsl (p := ⟨t1, [], [], max 1 c.slots, env⟩) ⟨⟨0, h1⟩, rfl, henv⟩
  cases e2 : advance c inner ⟨t1, [], [], max 1 c.slots, env⟩ with
  | error e => rw [e2] at h2; exact okErr_exactly h2 (fun w q => q w.1)
  | ok p =>
    rw [e2] at h2
    simp only
    have h3 := pipeLoop_safe S (inner := inner) hsl fuel h2.1
    cases e3 : pipeLoop c inner fuel p with
    | error e =>
      rw [e3] at h3
      refine okErr_exactly h3 (fun w q => q ⟨w.1, .inl ?_⟩)
      have := h2.2.1
      simp only at this
      omega
    | ok t2 =>
      rw [e3] at h3
      obtain ⟨⟨k, h⟩, hu⟩ := h3
      exact h.exact hu hall hlen

/-- Deterministic. -/
theorem C64_deterministic (c : Ctx) (G : Nat → Rec) (topK l fuel : Nat) (t : TD) (env : List (Nat → Option Rec))
    (hs : Setting c G (max l topK) t) (all : List Nat)
    (hall : ∀ i, LiveReach c.n c.dead (fun i => (G i).nbrs) c.medoid i → i ∈ all) (hlen : all.length ≤ max l topK)
    (henv : ∀ f ∈ env, FunOk False (fun m r => r = G m) f) :
    Exactly c G topK (c.n ≤ fuel) (resultOf (greedyDet c topK l fuel t (some (G c.medoid)) env)) := by
  unfold greedyDet
  obtain ⟨t1, e1, h1⟩ := seed_x hs.clean hs.medoid hs.bits hs.regions G hs.degree
  have S := xok_steps c G (max l topK) hs.bits hs.regions hs.degree
  rw [e1]
  simp only
  have h3 := detLoop_safe S fuel h1 henv
  cases e3 : detLoop c fuel t1 env with
  | error e => rw [e3] at h3; exact okErr_exactly h3 (fun w q => q (by omega))
  | ok t2 =>
    rw [e3] at h3
    obtain ⟨⟨k, h⟩, hu⟩ := h3
    exact h.exact hu hall hlen

theorem best_mem_of_perm {k : Nat} {a b off off' : List (Nat × Int)} (h1 : Best nearer k a off) (h2 : Best nearer k b off')
    (hp : off.Perm off') : a = b := by
  obtain ⟨s1, l1, r1, p1, b1⟩ := h1
  obtain ⟨s2, l2, r2, p2, b2⟩ := h2
  have anti : ∀ x y : Nat × Int, nearer x y → nearer y x → x = y := fun x y h h' => leL_antisymm h h'
  -- both lists are prefixes of sorted permutations; compare heads
  have key : ∀ (n : Nat) (a b r1 r2 : List (Nat × Int)), a.length = n → b.length = n → a.Pairwise nearer → b.Pairwise nearer →
      (a ++ r1).Perm (b ++ r2) → (∀ r ∈ r1, ∀ e ∈ a, nearer e r) → (∀ r ∈ r2, ∀ e ∈ b, nearer e r) → a = b := by
    intro n
    induction n with
    | zero =>
      intro a b r1 r2 ha hb _ _ _ _ _
      rw [List.length_eq_zero_iff.mp ha, List.length_eq_zero_iff.mp hb]
    | succ n ih =>
      intro a b r1 r2 ha hb sa sb hp ba bb
      match a, b with
      | [], _ => simp at ha
      | _ :: _, [] => simp at hb
      | x :: a, y :: b =>
        rw [List.pairwise_cons] at sa sb
        have hmin : ∀ (z : Nat × Int) (c r : List (Nat × Int)), (∀ w ∈ c, nearer z w) → (∀ w ∈ r, ∀ e ∈ z :: c, nearer e w) →
            ∀ w ∈ (z :: c) ++ r, nearer z w := by
          intro z c r hc hr w hw
          rcases List.mem_append.mp hw with q | q
          · rcases List.mem_cons.mp q with rfl | q
            · exact .inr ⟨rfl, Nat.le_refl _⟩
            · exact hc w q
          · exact hr w q z List.mem_cons_self
        have hxy : x = y := by
          refine anti x y ?_ ?_
          · exact hmin x a r1 sa.1 ba y (hp.mem_iff.mpr (List.mem_append_left _ List.mem_cons_self))
          · exact hmin y b r2 sb.1 bb x (hp.mem_iff.mp (List.mem_append_left _ List.mem_cons_self))
        subst hxy
        have := ih a b r1 r2 (by simpa using ha) (by simpa using hb) sa.2 sb.2 (List.Perm.cons_inv hp)
          (fun r hr e he => ba r hr e (List.mem_cons_of_mem _ he)) (fun r hr e he => bb r hr e (List.mem_cons_of_mem _ he))
        rw [this]
  refine key a.length a b r1 r2 rfl ?_ s1 s2 (p1.symm.trans (hp.trans p2)) b1 b2
  rw [l1, l2, hp.length_eq]

/-- The specification leaves no choice. -/
theorem C64_unique (n : Nat) (dead : Nat → Bool) (nbrs : Nat → List Nat) (dist : Nat → Int) (medoid topK : Nat)
    (out out' : List (Nat × Int)) (h : ExactTopK n dead nbrs dist medoid topK out) (h' : ExactTopK n dead nbrs dist medoid topK out') :
    out = out' := by
  obtain ⟨a, a1, a2, a3⟩ := h
  obtain ⟨b, b1, b2, b3⟩ := h'
  refine best_mem_of_perm a3 b3 (perm_of_mem a1 b1 ?_)
  rintro ⟨i, d⟩
  rw [a2, b2]

/-- Any two runs, pipelined or not, give the same list. -/
theorem C64_order_independent (c : Ctx) (G : Nat → Rec) (topK l inner fuel fuel' : Nat) (t t' : TD) (env : List Ans)
    (env' : List (Nat → Option Rec)) (hs : Setting c G (max l topK) t) (hs' : Setting c G (max l topK) t') (all : List Nat)
    (hall : ∀ i, LiveReach c.n c.dead (fun i => (G i).nbrs) c.medoid i → i ∈ all) (hlen : all.length ≤ max l topK)
    (henv : ∀ a ∈ env, AnsOk False (fun m r => r = G m) a) (henv' : ∀ f ∈ env', FunOk False (fun m r => r = G m) f)
    (out out' : List (Nat × Int)) (h : resultOf (greedyPipe c topK l inner fuel t (some (G c.medoid)) env) = .ok out)
    (h' : resultOf (greedyDet c topK l fuel' t' (some (G c.medoid)) env') = .ok out') : out = out' := by
  have h1 := C64_pipelined c G topK l inner fuel t env hs all hall hlen henv
  have h2 := C64_deterministic c G topK l fuel' t' env' hs' all hall hlen henv'
  rw [h] at h1
  rw [h'] at h2
  exact C64_unique _ _ _ _ _ _ _ _ h1 h2

/-! With a short list the order of completions matters. -/

def shortCtx : Ctx := ⟨4, fun _ => false, 0, 4, 4, 4, 4⟩
def shortG : Nat → Rec
  | 0 => ⟨10, [1, 2]⟩
  | 1 => ⟨5, []⟩
  | 2 => ⟨7, [3]⟩
  | 3 => ⟨1, []⟩
  | _ => ⟨0, []⟩

/-- "Both modes yield identical recall (only tie-ordering differs)" (beam_search.hpp:181-183) does not hold: with
search_list_size = top_k = 1 the deterministic run returns node 1 (distance 5), and a pipelined run in which the read of node 2 completes
first returns node 3 (distance 1). -/
theorem C64_short_list_refuted :
    ∃ (c : Ctx) (G : Nat → Rec) (env : List Ans) (env' : List (Nat → Option Rec)), Setting c G 1 exTD ∧
      (∀ a ∈ env, AnsOk False (fun m r => r = G m) a) ∧ (∀ f ∈ env', FunOk False (fun m r => r = G m) f) ∧
      listOf (resultOf (greedyDet c 1 1 9 exTD (some (G c.medoid)) env')) = some [(1, 5)] ∧
      listOf (resultOf (greedyPipe c 1 1 9 9 exTD (some (G c.medoid)) env)) = some [(3, 1)] := by
  refine ⟨shortCtx, shortG, [.miss, .miss, .events [(2, some (shortG 2))], .miss, .events [(1, some (shortG 1))],
    .events [(3, some (shortG 3))]], [fun i => some (shortG i), fun i => some (shortG i)],
    ⟨by decide, by decide, by decide, ?_, ?_⟩, ?_, ?_, by decide +kernel, by decide +kernel⟩
  · intro i
    match i with
    | 0 | 1 | 2 | 3 => decide
    | n + 4 => exact Nat.zero_le _
  · intro i hi; exact absurd rfl hi
  · intro a ha
    simp only [List.mem_cons, List.not_mem_nil, or_false] at ha
    rcases ha with rfl | rfl | rfl | rfl | rfl | rfl
    · trivial
    · trivial
    · intro x hx; rw [List.mem_singleton.mp hx]
    · trivial
    · intro x hx; rw [List.mem_singleton.mp hx]
    · intro x hx; rw [List.mem_singleton.mp hx]
  · intro f hf
    simp only [List.mem_cons, List.not_mem_nil, or_false] at hf
    rcases hf with rfl | rfl
    · intro m; rfl
    · intro m; rfl

/-! The hypotheses are met by the graph of C56 with a list of length 4; node 2 is tombstoned. -/
example : Setting exCtx exRec (max 4 3) exTD := by
  refine ⟨by decide, by decide, by decide, ?_, ?_⟩
  · intro i
    match i with
    | 0 | 1 | 2 | 3 => decide
    | n + 4 => exact Nat.zero_le _
  · intro i hi; exact absurd rfl hi
example : ∀ i, LiveReach exCtx.n exCtx.dead (fun i => (exRec i).nbrs) exCtx.medoid i → i ∈ [0, 1, 2, 3] := by
  intro i h
  have : i < 4 := by
    cases h with
    | start => decide
    | step _ _ h _ => exact h
  match i, this with
  | 0, _ | 1, _ | 2, _ | 3, _ => decide
example : listOf (resultOf (greedyPipe exCtx 2 4 4 9 exTD (some (exRec exCtx.medoid))
    [.miss, .events [(1, some (exRec 1))], .hit exRec])) = some [(1, 5), (3, 7)] := by decide +kernel

end Alaya.DiskBeam
