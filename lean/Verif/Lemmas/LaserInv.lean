import Verif.Lemmas.LaserSearch

namespace Alaya.Laser
open Alaya Alaya.Pools Alaya.Spec Alaya.Hybrid Alaya.Hybrid.Spec Alaya.RSearch Alaya.Laser.Spec

/-! ### The index -/

/-- The node as it is in the file. -/
def Index.row {α : Type} (I : Index α) (c : Nat) : Row := I.nodeIn (I.dev (I.page c)) c

def Index.nbs {α : Type} (I : Index α) (c : Nat) : List (Nat × Int) := (I.row c).nbs

def Index.exact {α : Type} (I : Index α) (c : Nat) : Int := (I.row c).exact

/-- The nodes put into the pool at the start. -/
def Index.starts {α : Type} (I : Index α) : List Nat := (if I.medoids = [] then [] else [bestMedoid I.fmax I.medoids]) ++ [I.ep]

/-- The index is sound; `dmax` bounds all distances, `R` the degrees. -/
structure IOk {α : Type} (I : Index α) (dmax : Int) (R : Nat) : Prop where
  small : I.n ≤ 2147483648
  starts : ∀ s ∈ I.starts, s < I.n
  edges : ∀ c < I.n, ∀ e ∈ I.nbs c, e.1 < I.n ∧ e.2 ≤ dmax
  deg : ∀ c < I.n, (I.nbs c).length ≤ R
  exact : ∀ c < I.n, I.exact c ≤ dmax
  fmax : I.fmax ≤ dmax
  cache : ∀ c r, I.cache c = some r → r = I.row c

/-! ### The invariant -/

def cachedIds : Pc → List Nat
  | .collect _ cs => cs
  | .cached _ cs => cs
  | _ => []

def reqsOf : Pc → List (Nat × Nat)
  | .collect rs _ => rs
  | _ => []

/-- The nodes visited when those of `E` have been processed. -/
def visited {α : Type} (q : Q α) (E : List Nat) : List Nat :=
  E ++ (q.ongoing.map Prod.fst ++ (q.prepared.map Prod.fst ++ cachedIds q.pc))

def draining : Pc → Prop
  | .drain => True
  | .fin => True
  | _ => False

/-- How many nodes are on their way. -/
def CountOk {α : Type} (q : Q α) : Prop :=
  match q.pc with
  | .top => q.ongoing.length + q.prepared.length = q.prev
  | .collect rs _ => q.ongoing.length + q.prepared.length = q.prev + rs.length ∧ rs.length ≤ q.beam
  | .cached ops _ => q.ongoing.length + q.prepared.length = q.prev + ops ∧ ops ≤ q.beam
  | .work need => q.ongoing.length + q.prepared.length = q.prev + need
  | .drain => q.ongoing.length + q.prepared.length = q.prev
  | .fin => q.ongoing.length + q.prepared.length = 0
  | .thrown => False

structure Inv {α : Type} (I : Index α) (dmax : Int) (ef k mb : Nat) (E : List Nat) (q : Q α) : Prop where
  pool : PInv dmax I.n ef q.pool
  vis : HRep q.vis (visited q E)
  nodup : (visited q E).Nodup
  valid : ∀ v ∈ visited q E, v < I.n
  reach : ∀ v ∈ visited q E, Reach I.starts I.nbs v
  chkd : ∀ e ∈ q.pool.ents, chk e = true → getId e.1 ∈ visited q E
  src : (q.pool.ents.map bare).Subperm (offers I.starts I.nbs I.fmax E)
  keys : (q.ongoing.map Prod.fst).Perm ((reqsOf q.pc).map Prod.fst ++ (q.flying.map Prod.fst ++ q.done))
  sub : ∀ e, e ∈ reqsOf q.pc ∨ e ∈ q.flying → e ∈ q.ongoing
  slots : (q.free ++ (q.ongoing.map Prod.snd ++ q.prepared.map Prod.snd)).Nodup
  nslots : q.free.length + q.ongoing.length + q.prepared.length = 2 * mb
  donePage : ∀ e ∈ q.ongoing, e.1 ∈ q.done → q.mem e.2 = I.dev (I.page e.1)
  prepPage : ∀ e ∈ q.prepared, q.mem e.2 = I.dev (I.page e.1)
  cachd : ∀ c ∈ cachedIds q.pc, ∃ r, I.cache c = some r
  cnt : CountOk q
  beam : 1 ≤ q.beam ∧ q.beam ≤ mb
  prev : q.prev ≤ mb / 2
  res : BInv dmax I.exact k q.res E
  covS : ¬ draining q.pc → ∀ s ∈ I.starts, Dealt ef (visited q E) q.pool (s, I.fmax)
  covE : ¬ draining q.pc → ∀ c ∈ E, ∀ e ∈ I.nbs c, Dealt ef (visited q E) q.pool e
  fin : draining q.pc → ∃ A B, E = A ++ B ∧ B.length + q.prev ≤ mb / 2 ∧ Explored I.starts I.nbs I.fmax ef A (visited q E)

/-- What bounds the number of steps. -/
def waitW : Pc → Nat
  | .top => 2
  | .collect _ _ => 0
  | .cached _ _ => 4
  | .work _ => 3
  | .drain => 1
  | .fin => 0
  | .thrown => 0

/-- `collect` is about to submit. -/
def collectW {α : Type} (q : Q α) : Nat :=
  match q.pc with
  | .collect rs _ => if q.pool.hasNext = true ∧ rs.length < q.beam then 0 else 5
  | _ => 0

def meas {α : Type} (I : Index α) (R : Nat) (E : List Nat) (q : Q α) : Nat :=
  (6 * R + 4) * (I.n - (visited q E).length) + 6 * q.pool.open_ + (6 * R + 3) * ((reqsOf q.pc).length + q.flying.length)
    + (6 * R + 2) * q.done.length + (6 * R + 1) * (q.prepared.length + (cachedIds q.pc).length) + waitW q.pc + collectW q

theorem Inv.len {α : Type} {I : Index α} {dmax : Int} {ef k mb : Nat} {E : List Nat} {q : Q α} (h : Inv I dmax ef k mb E q) :
    q.ongoing.length = (reqsOf q.pc).length + q.flying.length + q.done.length := by
  have := h.keys.length_eq
  simp at this
  omega

theorem Inv.vlen {α : Type} {I : Index α} {dmax : Int} {ef k mb : Nat} {E : List Nat} {q : Q α} (h : Inv I dmax ef k mb E q) :
    (visited q E).length ≤ I.n := nodup_lt_length h.nodup h.valid

/-! ### Processing a node -/

theorem process_spec {α : Type} {I : Index α} {dmax : Int} {R ef k mb : Nat} (hI : IOk I dmax R) (hef : 0 < ef) (hk : 0 < k) {E : List Nat} {q : Q α}
    (h : Inv I dmax ef k mb E q) {c : Nat} (hc : c < I.n) :
    ∃ p res, process q c (I.row c) = some { q with pool := p, res := res } ∧ Scanned dmax I.n ef (visited q E) (I.nbs c) q.pool p ∧
      BInv dmax I.exact k res (E ++ [c]) := by
  obtain ⟨p, a1, a2⟩ := scan_spec hef hI.small h.vis (I.nbs c) q.pool h.pool (hI.edges c hc)
  obtain ⟨res, b1, b2⟩ := h.res.insert hk c
  refine ⟨p, res, ?_, a2, b2⟩
  unfold process
  have e : resInsert q.res c (I.row c).exact = some res :=
    (resInsert_eq (dmax := dmax) (by rw [h.res.hcap]; exact hk) (hI.exact c hc)).trans b1
  rw [show scan q.vis (I.row c).nbs q.pool = some p from a1, e]

theorem offers_snoc (starts : List Nat) (nbs : Nat → List (Nat × Int)) (fmax : Int) (A : List Nat) (c : Nat) :
    (nbs c ++ offers starts nbs fmax A).Perm (offers starts nbs fmax (A ++ [c])) := by
  unfold offers
  rw [List.flatMap_append]
  simp only [List.flatMap_cons, List.flatMap_nil, List.append_nil]
  refine (List.perm_append_comm).trans ?_
  rw [List.append_assoc]

/-- Processing a visited node that waits: the parts of the invariant that concern the pool and the results. -/
theorem Inv.processed {α : Type} {I : Index α} {dmax : Int} {ef k mb : Nat} {E : List Nat} {q : Q α}
    (h : Inv I dmax ef k mb E q) {c : Nat} {p : SPool} {res : SBuf}
    (hs : Scanned dmax I.n ef (visited q E) (I.nbs c) q.pool p) (hr : BInv dmax I.exact k res (E ++ [c])) {q' : Q α}
    (hp' : q'.pool = p) (hr' : q'.res = res) (hv' : q'.vis = q.vis) (hm' : q'.mem = q.mem) (hon : q'.ongoing = q.ongoing)
    (hfl : q'.flying = q.flying) (hdo : q'.done = q.done) (hbm : q'.beam = q.beam)
    (hperm : (visited q E).Perm (visited q' (E ++ [c])))
    (hreq : reqsOf q'.pc = reqsOf q.pc) (hdr : draining q'.pc ↔ draining q.pc)
    (hslots : (q'.free ++ (q'.ongoing.map Prod.snd ++ q'.prepared.map Prod.snd)).Nodup)
    (hns : q'.free.length + q'.ongoing.length + q'.prepared.length = 2 * mb)
    (hprep : ∀ e ∈ q'.prepared, e ∈ q.prepared) (hca : ∀ x ∈ cachedIds q'.pc, x ∈ cachedIds q.pc)
    (hcnt : CountOk q') (hprev : q'.prev ≤ mb / 2) (hfin : draining q'.pc → q'.prev + 1 ≤ q.prev) :
    Inv I dmax ef k mb (E ++ [c]) q' := by
  have hV : ∀ v, v ∈ visited q E ↔ v ∈ visited q' (E ++ [c]) := fun v => hperm.mem_iff
  have hD : ∀ p e, Dealt ef (visited q E) p e → Dealt ef (visited q' (E ++ [c])) p e := by
    intro p e he
    rcases he with he | he
    · exact .inl ((hV _).mp he)
    · exact .inr he
  constructor
  · rw [hp']; exact hs.pool
  · rw [hv']; exact HRep.congr h.vis hV
  · exact hperm.nodup_iff.mp h.nodup
  · intro v hv; exact h.valid v ((hV v).mpr hv)
  · intro v hv; exact h.reach v ((hV v).mpr hv)
  · intro e he hch
    rw [hp'] at he
    exact (hV _).mp (h.chkd e (hs.chkd e he hch) hch)
  · rw [hp']
    refine hs.many.trans (((List.subperm_append_left _).mpr h.src).trans (offers_snoc _ _ _ _ _).subperm)
  · rw [hon, hfl, hdo, hreq]; exact h.keys
  · rw [hon, hfl, hreq]; exact h.sub
  · exact hslots
  · exact hns
  · rw [hon, hdo, hm']; exact h.donePage
  · intro e he; rw [hm']; exact h.prepPage e (hprep e he)
  · intro x hx; exact h.cachd x (hca x hx)
  · exact hcnt
  · rw [hbm]; exact h.beam
  · exact hprev
  · rw [hr']; exact hr
  · intro hd s hs'
    rw [hp']
    exact hD _ _ (hs.mono (h.covS (fun hx => hd (hdr.mpr hx)) s hs'))
  · intro hd x hx e he
    rw [hp']
    rcases List.mem_append.mp hx with hx | hx
    · exact hD _ _ (hs.mono (h.covE (fun hx => hd (hdr.mpr hx)) x hx e he))
    · rw [List.mem_singleton] at hx
      subst hx
      exact hD _ _ (hs.dealt e he)
  · intro hd
    obtain ⟨A, B, e1, e2, e3⟩ := h.fin (hdr.mp hd)
    refine ⟨A, B ++ [c], by rw [e1, List.append_assoc], by have := hfin hd; simp; omega, ?_⟩
    have hB : ∀ d, Beaten I.starts I.nbs I.fmax ef A (visited q E) d → Beaten I.starts I.nbs I.fmax ef A (visited q' (E ++ [c])) d := by
      rintro d ⟨P, p1, p2, p3⟩
      exact ⟨P, p1, p2, fun x hx => ⟨(hV _).mp (p3 x hx).1, (p3 x hx).2⟩⟩
    exact ⟨hperm.nodup_iff.mp e3.nodup, fun v hv => (hV v).mp (e3.sub v hv), fun v hv => e3.reach v ((hV v).mpr hv),
      fun s hs' => (e3.first s hs').imp (fun hx => (hV _).mp hx) (hB _),
      fun x hx e he => (e3.beam x hx e he).imp (fun hx => (hV _).mp hx) (hB _)⟩

end Alaya.Laser
