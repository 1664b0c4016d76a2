import Verif.Lemmas.DiskBeam

/-
C56: tombstoned nodes are never returned by a disk search.  The graph is whatever the reads return: it may be cyclic, have dangling or
corrupt neighbour ids, and change during the search.  The only hypothesis is that the medoid is a node of the snapshot.
-/
namespace Alaya.DiskBeam
open Alaya Alaya.Pools Alaya.DiskBeam.Spec

/-- A search ended well: it returned a good result, threw, or its environment's description ended; never undefined, and never because
of its own loops when the bounds are large enough. -/
def Fine (n : Nat) (dead : Nat → Bool) (topK : Nat) (enough : Prop) : Except Err (List (Nat × Int)) → Prop
  | .ok out => Good n dead topK out
  | .error e => e ≠ .ub ∧ (enough → e ≠ .fuel)

/-- The returned list of a run. -/
def resultOf (x : Except Err (List (Nat × Int) × TD)) : Except Err (List (Nat × Int)) :=
  match x with
  | .ok p => .ok p.1
  | .error e => .error e

theorem okErr_fine {thr fu enough : Prop} {e : Err} (h : okErr thr fu e) (hf : enough → ¬ fu) : e ≠ .ub ∧ (enough → e ≠ .fuel) := by
  cases e with
  | thrown => exact ⟨(by intro q; cases q), (by intro _ q; cases q)⟩
  | ub => exact h.elim
  | stuck => exact ⟨(by intro q; cases q), (by intro _ q; cases q)⟩
  | fuel => exact ⟨(by intro q; cases q), fun w => absurd h (hf w)⟩

/-- `disk_greedy_search`, pipelined, any order of completions; it ends after at most one round per answer of the environment. -/
theorem C56_greedy_pipelined (c : Ctx) (topK l inner fuel : Nat) (t : TD) (r : Option Rec) (env : List Ans) (hm : c.medoid < c.n) :
    Fine c.n c.dead topK (c.n ≤ inner ∧ env.length < fuel) (resultOf (greedyPipe c topK l inner fuel t r env)) := by
  unfold greedyPipe
  have h1 := seed_safe (list := max l topK) hm t r
  cases e1 : seed c t (max l topK) r with
  | error e => rw [e1] at h1; exact okErr_fine h1 (fun _ q => q)
  | ok t1 =>
    rw [e1] at h1
    simp only
    have hs : max 1 c.slots ≠ 0 := by have := Nat.le_max_left 1 c.slots; omega
    have h2 := advance_safe (gok_steps c (max l topK)) (inner := inner) hs (p := ⟨t1, [], [], max 1 c.slots, env⟩)
      ⟨⟨0, h1⟩, rfl, by
        intro a _
        cases a with
        | hit f => exact fun _ => trivial
        | miss => trivial
        | events es => intro x _; cases x.2 <;> trivial⟩
    cases e2 : advance c inner ⟨t1, [], [], max 1 c.slots, env⟩ with
    | error e => rw [e2] at h2; exact okErr_fine h2 (fun w q => q w.1)
    | ok p =>
      rw [e2] at h2
      simp only
      have h3 := pipeLoop_safe (gok_steps c (max l topK)) (inner := inner) hs fuel h2.1
      cases e3 : pipeLoop c inner fuel p with
      | error e =>
        rw [e3] at h3
        refine okErr_fine h3 (fun w q => q ⟨w.1, .inl ?_⟩)
        have := h2.2.1
        simp only at this
        omega
      | ok t2 =>
        rw [e3] at h3
        obtain ⟨⟨k, off, popped, h, _⟩, _⟩ := h3
        exact extract_good h.q h.ok

/-- `disk_greedy_search`, deterministic. -/
theorem C56_greedy_deterministic (c : Ctx) (topK l fuel : Nat) (t : TD) (r : Option Rec) (env : List (Nat → Option Rec))
    (hm : c.medoid < c.n) : Fine c.n c.dead topK (c.n ≤ fuel) (resultOf (greedyDet c topK l fuel t r env)) := by
  unfold greedyDet
  have h1 := seed_safe (list := max l topK) hm t r
  cases e1 : seed c t (max l topK) r with
  | error e => rw [e1] at h1; exact okErr_fine h1 (fun _ q => q)
  | ok t1 =>
    rw [e1] at h1
    simp only
    have h3 := detLoop_safe (gok_steps c (max l topK)) fuel h1 (env := env) (by
      intro f _ m
      cases f m <;> trivial)
    cases e3 : detLoop c fuel t1 env with
    | error e => rw [e3] at h3; exact okErr_fine h3 (fun w q => q (by omega))
    | ok t2 =>
      rw [e3] at h3
      obtain ⟨⟨k, off, popped, h, _⟩, _⟩ := h3
      exact extract_good h.q h.ok

theorem extractPQ_fine {c : Ctx} {list topK : Nat} {t : TD} (h : ∃ off popped, QInv list t.q off popped ∧ OffOk c t off)
    (want : Option Nat) (reads : List (Option Int)) (enough : Prop) : Fine c.n c.dead topK enough (extractPQ c topK want t reads) := by
  have := extractPQ_safe (topK := topK) h want reads
  cases e : extractPQ c topK want t reads with
  | error e => rw [e] at this; exact okErr_fine this (fun _ q => q)
  | ok out => rw [e] at this; exact this

/-- `cached_beam_search` with PQ, pipelined, with or without rerank. -/
theorem C56_beam_pipelined (c : Ctx) (pq : Nat → Int) (topK l beam inner fuel : Nat) (want : Option Nat) (t : TD) (env : List Ans)
    (reads : List (Option Int)) (hm : c.medoid < c.n) :
    Fine c.n c.dead topK (c.n ≤ inner ∧ env.length < fuel) (beamPipe c pq topK l beam inner fuel want t env reads) := by
  unfold beamPipe
  have h1 := seedPQ_safe (list := max l topK) (pq := pq) hm t
  cases e1 : seedPQ c pq t (max l topK) with
  | error e => rw [e1] at h1; exact okErr_fine h1 (fun _ q => q)
  | ok t1 =>
    rw [e1] at h1
    simp only
    have hb : max 1 beam ≠ 0 := by have := Nat.le_max_left 1 beam; omega
    have hall : ∀ a ∈ env, AnsOk True (fun _ _ => True) a := by
      intro a _
      cases a with
      | hit f => exact fun _ => trivial
      | miss => trivial
      | events es => intro x _; cases x.2 <;> trivial
    have h2 := fillPipe_safe (pok_steps c pq (max l topK)) (slots := max 1 beam) inner (fly := []) (free := max 1 beam) h1 rfl hall
    cases e2 : fillPipe c pq inner t1 [] (max 1 beam) env with
    | error e => rw [e2] at h2; exact okErr_fine h2 (fun w q => q (by omega))
    | ok p =>
      rw [e2] at h2
      obtain ⟨t2, fly, free, env2⟩ := p
      obtain ⟨a1, a2, a3, a4, a5⟩ := h2
      simp only at a1 a2 a3 a4 a5 ⊢
      have h3 := pqLoop_safe (pok_steps c pq (max l topK)) (inner := inner) hb fuel a1 a2 a4 a5
      cases e3 : pqLoop c pq inner fuel t2 fly free env2 with
      | error e => rw [e3] at h3; exact okErr_fine h3 (fun w q => q (by omega))
      | ok p3 =>
        rw [e3] at h3
        obtain ⟨⟨k, off, popped, hq, ho, _⟩, _⟩ := h3
        exact extractPQ_fine ⟨off, popped, hq, ho⟩ want reads _

/-- `cached_beam_search` with PQ, deterministic. -/
theorem C56_beam_deterministic (c : Ctx) (pq : Nat → Int) (topK l beam inner fuel : Nat) (want : Option Nat) (t : TD) (env : List BAns)
    (reads : List (Option Int)) (hm : c.medoid < c.n) :
    Fine c.n c.dead topK (c.n ≤ inner ∧ c.n ≤ fuel) (beamDet c pq topK l beam inner fuel want t env reads) := by
  unfold beamDet
  have h1 := seedPQ_safe (list := max l topK) (pq := pq) hm t
  cases e1 : seedPQ c pq t (max l topK) with
  | error e => rw [e1] at h1; exact okErr_fine h1 (fun _ q => q)
  | ok t1 =>
    rw [e1] at h1
    simp only
    have hb : max 1 beam ≠ 0 := by have := Nat.le_max_left 1 beam; omega
    have hall : ∀ a ∈ env, BAnsOk True (fun _ _ => True) a := by
      intro a _
      cases a with
      | inCache f => exact fun _ => trivial
      | inPages f => exact fun _ => trivial
      | device f => intro m; show (match f m with | none => True | some _ => True); cases f m <;> trivial
    have h3 := pqDetLoop_safe (pok_steps c pq (max l topK)) (inner := inner) hb fuel h1 hall
    cases e3 : pqDetLoop c pq (max 1 beam) inner fuel t1 env with
    | error e => rw [e3] at h3; exact okErr_fine h3 (fun w q => q (by omega))
    | ok p3 =>
      rw [e3] at h3
      obtain ⟨⟨k, off, popped, hq, ho, _⟩, _⟩ := h3
      exact extractPQ_fine ⟨off, popped, hq, ho⟩ want reads _

/-! A graph with a cycle, a dangling id (99) and a tombstone (2): medoid 0. -/

def exCtx : Ctx := ⟨4, fun i => i == 2, 0, 2, 8, 8, 4⟩
def exRec : Nat → Rec
  | 0 => ⟨9, [1, 2, 99]⟩
  | 1 => ⟨5, [0, 3, 3]⟩
  | 3 => ⟨7, [1]⟩
  | _ => ⟨1, []⟩
def exTD : TD := ⟨⟨[], 0, 0, 0⟩, [], fun _ => (0, 0), [], fun _ => [], [], fun _ => none⟩

/-- The list, if one is returned. -/
def listOf (x : Except Err (List (Nat × Int))) : Option (List (Nat × Int)) :=
  match x with
  | .ok l => some l
  | .error _ => none

example : exCtx.medoid < exCtx.n := by decide
example : listOf (resultOf (greedyPipe exCtx 3 4 4 9 exTD (some (exRec 0))
    [.miss, .events [(1, some (exRec 1))], .hit exRec])) = some [(1, 5), (3, 7), (0, 9)] := by decide +kernel
example : listOf (resultOf (greedyDet exCtx 3 4 9 exTD (some (exRec 0)) [fun i => some (exRec i), fun i => some (exRec i)])) =
    some [(1, 5), (3, 7), (0, 9)] := by decide +kernel
example : listOf (beamPipe exCtx (fun i => i) 3 4 2 4 9 (some 0) exTD
    [.miss, .events [(0, some (exRec 0))], .hit exRec, .miss, .events [(3, some (exRec 3))]] []) =
    some [(1, 5), (3, 7), (0, 9)] := by decide +kernel
example : listOf (beamDet exCtx (fun i => i) 3 4 2 4 9 none exTD
    [.device fun i => some (exRec i), .inCache exRec, .inPages exRec] []) =
    some [(1, 5), (3, 7), (0, 9)] := by decide +kernel

end Alaya.DiskBeam
