import Verif.Lemmas.DiskNodes

namespace Alaya.DiskNodes
open Alaya.DiskLayout Alaya.DiskPages
open Alaya.DiskSlots (Out)
open Alaya.Seq (memWrite slice memWrite_eq)

/-- The node store over the pages `latest` represents the records `m`. -/
structure NInv (sh : Nat → Nat) (cap : Nat) (g : Geom) (dim deg : Nat) (n : Nodes) (latest : Disk) (m : Nat → Rec) : Prop where
  pages : GInv sh cap n.io latest
  recs : RecInv g dim deg latest m
  zero : ∀ id, g.Addressable id → n.io.fileSize < g.pageOffset id + g.pageSize → latest (g.pageOffset id) = List.replicate g.pageSize 0
  vec : ∀ id c, g.Addressable id → n.vec id = some c → c = (m id).1
  inFile : KeyIn n.io (fun o => o + g.pageSize ≤ n.io.fileSize)

/-- The device itself holds the current records of the nodes in `clean`. -/
def DInv (g : Geom) (d : Disk) (m : Nat → Rec) (clean : Nat → Prop) : Prop :=
  ∀ id, g.Addressable id → clean id → Holds (d (g.pageOffset id)) (g.offsetToNode id) (m id).1 (m id).2

theorem dinv_step {g : Geom} {dim deg : Nat} {d d' latest : Disk} {m : Nat → Rec} {clean : Nat → Prop} (h : DInv g d m clean)
    (hr : RecInv g dim deg latest m) (hd : ∀ o, d' o = d o ∨ d' o = latest o) : DInv g d' m clean := by
  intro id hid hc
  rcases hd (g.pageOffset id) with e | e
  · rw [e]; exact h id hid hc
  · rw [e]; exact hr.holds id hid

/-- A new page state with the same contents. -/
theorem NInv.withIo {sh : Nat → Nat} {cap : Nat} {g : Geom} {dim deg : Nat} {n : Nodes} {latest : Disk} {m : Nat → Rec}
    (h : NInv sh cap g dim deg n latest m) {p : PageIO} (hp : GInv sh cap p latest) (hf : n.io.fileSize ≤ p.fileSize)
    (hk : KeyIn p (fun o => o + g.pageSize ≤ n.io.fileSize)) :
    NInv sh cap g dim deg { n with io := p } latest m :=
  ⟨hp, h.recs, fun id hid hh => h.zero id hid (by simp only at hh; omega), h.vec, hk.mono (fun o ho => by simp only; omega)⟩

theorem loadForWrite_spec {sh : Nat → Nat} {cap : Nat} {g : Geom} {dim deg : Nat} {n : Nodes} {latest : Disk} {m : Nat → Rec}
    (h : NInv sh cap g dim deg n latest m) (io : Io) {id : Nat} (hid : g.Addressable id) :
    match loadForWrite sh g io n.io id with
    | .ub => False
    | .throws (b, p') => b = none ∧ NInv sh cap g dim deg { n with io := p' } latest m ∧
        ((∀ o, io o = none) → ∀ o, p'.disk o = n.io.disk o ∨ p'.disk o = latest o) ∧ (∃ o, io o ≠ none)
    | .ok (b, p') => b = some (latest (g.pageOffset id)) ∧ NInv sh cap g dim deg { n with io := p' } latest m ∧
        ((∀ o, io o = none) → ∀ o, p'.disk o = n.io.disk o ∨ p'.disk o = latest o) := by
  have hend : (g.pageOffset id + g.pageSize) % U64 = g.pageOffset id + g.pageSize := by
    rw [Good.pageOff hid]
    unfold Geom.Addressable at hid
    rw [Nat.mul_add, Nat.mul_one] at hid
    rw [U64_eq]
    exact Nat.mod_eq_of_lt (by omega)
  unfold loadForWrite
  simp only
  rw [hend]
  by_cases hfs : g.pageOffset id + g.pageSize ≤ n.io.fileSize
  · rw [if_pos hfs]
    have hr := readPage_spec (ps := g.pageSize) h.pages io (g.pageOffset id)
    cases e : n.io.readPage sh g.pageSize io (g.pageOffset id) with
    | ub => rw [e] at hr; exact hr
    | throws s =>
      obtain ⟨b, p'⟩ := s
      rw [e] at hr
      obtain ⟨h1, h2, -, -, h5, h6⟩ := hr
      refine ⟨h1, h.withIo h2 (by omega) (readPage_keys h.pages h.inFile (fun hh => hh) (Or.inr e)).1, fun hio o => readPage_val h.pages hio (Or.inr e) o, ?_⟩
      rcases h6 with h6 | h6
      · omega
      · exact h6
    | ok s =>
      obtain ⟨b, p'⟩ := s
      rw [e] at hr
      obtain ⟨h1, h2, -, -, h5⟩ := hr
      exact ⟨h1, h.withIo h2 (by omega) (readPage_keys h.pages h.inFile (fun hh => hh) (Or.inl e)).1, fun hio o => readPage_val h.pages hio (Or.inl e) o⟩
  · rw [if_neg hfs]
    refine ⟨by rw [h.zero id hid (by omega)], h.withIo ⟨h.pages.shard, h.pages.cap⟩ (by simp only; omega) h.inFile, fun _ o => Or.inl rfl⟩

/-- Writing back a page in which only the record of `id` changed. -/
theorem putPage_spec {sh : Nat → Nat} {cap : Nat} {g : Geom} {dim deg : Nat} (hg : Good g dim deg) {n : Nodes} {latest : Disk} {m : Nat → Rec}
    (h : NInv sh cap g dim deg n latest m) (io : Io) (hio : cap = 0 → ∀ o, io o = none) {id : Nat} (hid : g.Addressable id)
    (hfs : g.pageOffset id + g.pageSize ≤ n.io.fileSize) {r : Rec} (hc : r.1.length = dim) (hn : r.2.length ≤ deg) {page : Bytes}
    (hl : page.length = g.pageSize) (hh : Holds page (g.offsetToNode id) r.1 r.2)
    (hfr : ∀ o n, o + n ≤ g.offsetToNode id ∨ g.offsetToNode id + g.nodeLen ≤ o → slice page o n = slice (latest (g.pageOffset id)) o n)
    {vec' : Nat → Option (List (BitVec 32))} (hvec : ∀ x c, g.Addressable x → vec' x = some c → c = (updRec m id r x).1) :
    match n.io.writePage sh io (g.pageOffset id) page with
    | .ub => False
    | .throws p' => NInv sh cap g dim deg { n with io := p' } latest m ∧ (∃ o, io o ≠ none)
    | .ok p' => NInv sh cap g dim deg ⟨p', vec'⟩ (upd latest (g.pageOffset id) page) (updRec m id r) ∧ p'.fileSize = n.io.fileSize ∧
        ((∀ o, io o = none) → ∀ clean, DInv g n.io.disk m clean → DInv g p'.disk (updRec m id r) (fun x => clean x ∧ x ≠ id)) := by
  have hw := writePage_spec h.pages io hio (g.pageOffset id) page
  cases e : n.io.writePage sh io (g.pageOffset id) page with
  | ub => rw [e] at hw; exact hw
  | throws p' =>
    rw [e] at hw
    obtain ⟨h1, -, -, h4⟩ := hw
    refine ⟨h.withIo h1 (by omega) (writePage_keys h.pages h.inFile hfs (Or.inr e)), ?_⟩
    apply Classical.byContradiction
    intro hno
    have hio' : ∀ o, io o = none := by
      intro o
      cases hx : io o with
      | none => rfl
      | some j => exact absurd ⟨o, by rw [hx]; simp⟩ hno
    obtain ⟨p'', e'', -⟩ := writePage_val h.pages hio' (g.pageOffset id) page
    rw [e] at e''; cases e''
  | ok p' =>
    rw [e] at hw
    obtain ⟨h1, -, -, -, h5⟩ := hw
    have hrec := recInv_upd hg h.recs hid hc hn hl hh hfr
    refine ⟨⟨h1, hrec, ?_, hvec, ?_⟩, h5, ?_⟩
    · intro x hx hlt
      simp only at hlt
      rw [h5] at hlt
      unfold upd
      by_cases hpo : g.pageOffset x = g.pageOffset id
      · rw [hpo] at hlt; omega
      · rw [if_neg hpo]; exact h.zero x hx hlt
    · refine (writePage_keys h.pages h.inFile hfs (Or.inl e)).mono (fun o ho => ?_)
      simp only
      rw [h5]; exact ho
    · intro hio' clean hd x hx ⟨hcx, hxi⟩
      obtain ⟨p'', e'', hv⟩ := writePage_val h.pages hio' (g.pageOffset id) page
      rw [e] at e''
      injection e'' with e''
      subst e''
      have hux : updRec m id r x = m x := by unfold updRec; rw [if_neg hxi]
      rcases hv (g.pageOffset x) with hv | hv | ⟨ho, hv⟩
      · rw [hv, hux]; exact hd x hx hcx
      · rw [hv, hux]; exact h.recs.holds x hx
      · have := hrec.holds x hx
        unfold upd at this
        rw [if_pos ho] at this
        rw [hv]; exact this

/-- What a device step is allowed to do. -/
def Quiet (io : Io) (d d' latest : Disk) : Prop := (∀ o, io o = none) → ∀ o, d' o = d o ∨ d' o = latest o

theorem writeNode_op {sh : Nat → Nat} {cap : Nat} {g : Geom} {dim deg : Nat} (hg : Good g dim deg) {n : Nodes} {latest : Disk} {m : Nat → Rec}
    (h : NInv sh cap g dim deg n latest m) (io : Io) (hio : cap = 0 → ∀ o, io o = none) {id : Nat} (hid : g.Addressable id)
    {coords nbrs : List (BitVec 32)} (hc : coords.length = dim) :
    match n.writeNode sh g io id coords nbrs with
    | .ub => False
    | .throws n' => NInv sh cap g dim deg n' latest m ∧ (deg < nbrs.length ∨ ∃ o, io o ≠ none) ∧
        ((∀ o, io o = none) → ∀ clean, DInv g n.io.disk m clean → DInv g n'.io.disk m clean)
    | .ok n' => nbrs.length ≤ deg ∧ (∃ latest', NInv sh cap g dim deg n' latest' (updRec m id (coords, nbrs))) ∧
        g.pageOffset id + g.pageSize ≤ n'.io.fileSize ∧
        ((∀ o, io o = none) → ∀ clean, DInv g n.io.disk m clean → DInv g n'.io.disk (updRec m id (coords, nbrs)) (fun x => clean x ∧ x ≠ id)) := by
  unfold Nodes.writeNode
  by_cases hdeg : g.deg < nbrs.length
  · rw [if_pos hdeg]
    rw [hg.hdeg] at hdeg
    exact ⟨h, Or.inl hdeg, fun _ _ hd => hd⟩
  · rw [if_neg hdeg]
    rw [hg.hdeg] at hdeg
    have hl := loadForWrite_spec h io hid
    cases e : loadForWrite sh g io n.io id with
    | ub => rw [e] at hl; exact hl
    | throws s =>
      obtain ⟨b, p⟩ := s
      rw [e] at hl
      obtain ⟨-, h2, h3, h4⟩ := hl
      exact ⟨h2, Or.inr h4, fun hn clean hd => dinv_step hd h.recs (h3 hn)⟩
    | ok s =>
      obtain ⟨b, p⟩ := s
      have hfs : g.pageOffset id + g.pageSize ≤ p.fileSize := by
        unfold loadForWrite at e
        simp only at e
        have hend : (g.pageOffset id + g.pageSize) % U64 = g.pageOffset id + g.pageSize := by
          rw [Good.pageOff hid]
          unfold Geom.Addressable at hid
          rw [Nat.mul_add, Nat.mul_one] at hid
          rw [U64_eq]
          exact Nat.mod_eq_of_lt (by omega)
        rw [hend] at e
        by_cases hfs : g.pageOffset id + g.pageSize ≤ n.io.fileSize
        · rw [if_pos hfs] at e
          have hr := readPage_spec (ps := g.pageSize) h.pages io (g.pageOffset id)
          rw [e] at hr
          rw [hr.2.2.2.2]; exact hfs
        · rw [if_neg hfs] at e
          injection e with e; injection e with _ e; subst e; exact Nat.le_refl _
      rw [e] at hl
      obtain ⟨h1, h2, h3⟩ := hl
      subst h1
      simp only
      obtain ⟨pg, ep, lp, hp, kp⟩ := writeNode_spec hg (h.recs.len id hid) id hc (nbrs := nbrs) (by omega)
      rw [ep]
      simp only
      have htk : coords.take g.dim = coords := by rw [hg.hdim]; exact List.take_of_length_le (by omega)
      rw [htk]
      have hput := putPage_spec hg h2 io hio hid hfs (r := (coords, nbrs)) hc (by simp only; omega) lp hp kp
        (vec' := fun x => if x = id then some coords else n.vec x) (by
          intro x c hx hh
          unfold updRec
          by_cases hxi : x = id
          · rw [if_pos hxi] at hh ⊢
            injection hh with hh; exact hh.symm
          · rw [if_neg hxi] at hh ⊢
            exact h.vec x c hx hh)
      cases ew : p.writePage sh io (g.pageOffset id) pg with
      | ub => rw [ew] at hput; exact hput
      | throws p' =>
        simp only [ew] at hput
        refine ⟨hput.1, Or.inr hput.2, ?_⟩
        intro hn
        exact absurd hput.2 (by rintro ⟨o, ho⟩; exact ho (hn o))
      | ok p' =>
        simp only [ew] at hput
        obtain ⟨q1, q2, q3⟩ := hput
        refine ⟨by omega, ⟨_, q1⟩, by simp only; omega, ?_⟩
        intro hn clean hd
        exact q3 hn clean (dinv_step hd h.recs (h3 hn))

theorem writeNeighbors_op {sh : Nat → Nat} {cap : Nat} {g : Geom} {dim deg : Nat} (hg : Good g dim deg) {n : Nodes} {latest : Disk} {m : Nat → Rec}
    (h : NInv sh cap g dim deg n latest m) (io : Io) (hio : cap = 0 → ∀ o, io o = none) {id : Nat} (hid : g.Addressable id)
    {nbrs : List (BitVec 32)} :
    match n.writeNeighbors sh g io id nbrs with
    | .ub => False
    | .throws n' => NInv sh cap g dim deg n' latest m ∧ (deg < nbrs.length ∨ n.io.fileSize < g.pageOffset id + g.pageSize ∨ ∃ o, io o ≠ none) ∧
        ((∀ o, io o = none) → ∀ clean, DInv g n.io.disk m clean → DInv g n'.io.disk m clean)
    | .ok n' => nbrs.length ≤ deg ∧ (∃ latest', NInv sh cap g dim deg n' latest' (updRec m id ((m id).1, nbrs))) ∧
        g.pageOffset id + g.pageSize ≤ n'.io.fileSize ∧
        ((∀ o, io o = none) → ∀ clean, DInv g n.io.disk m clean → DInv g n'.io.disk (updRec m id ((m id).1, nbrs)) (fun x => clean x ∧ x ≠ id)) := by
  unfold Nodes.writeNeighbors
  by_cases hdeg : g.deg < nbrs.length
  · rw [if_pos hdeg]
    rw [hg.hdeg] at hdeg
    exact ⟨h, Or.inl hdeg, fun _ _ hd => hd⟩
  · rw [if_neg hdeg]
    rw [hg.hdeg] at hdeg
    have hr := readPage_spec (ps := g.pageSize) h.pages io (g.pageOffset id)
    cases e : n.io.readPage sh g.pageSize io (g.pageOffset id) with
    | ub => rw [e] at hr; exact hr
    | throws s =>
      obtain ⟨b, p⟩ := s
      rw [e] at hr
      obtain ⟨-, h2, -, -, h5, h6⟩ := hr
      exact ⟨h.withIo h2 (by omega) (readPage_keys h.pages h.inFile (fun hh => hh) (Or.inr e)).1, Or.inr h6, fun hn clean hd => dinv_step hd h.recs (fun o => readPage_val h.pages hn (Or.inr e) o)⟩
    | ok s =>
      obtain ⟨b, p⟩ := s
      have h3 : (∀ o, io o = none) → ∀ o, p.disk o = n.io.disk o ∨ p.disk o = latest o := fun hn o => readPage_val h.pages hn (Or.inl e) o
      have hrd := e
      rw [e] at hr
      obtain ⟨h1, h2', -, -, h5⟩ := hr
      have hrk := readPage_keys h.pages h.inFile (fun hh => hh) (Or.inl hrd)
      have h2 := h.withIo h2' (by omega) hrk.1
      subst h1
      simp only
      obtain ⟨pg, ep, lp, hp, kp⟩ := writeNeighbors_spec hg (h.recs.len id hid) id (h.recs.hdim id hid) (h.recs.holds id hid) (nbrs := nbrs) (by omega)
      rw [ep]
      simp only
      by_cases hfs : g.pageOffset id + g.pageSize ≤ p.fileSize
      · have hput := putPage_spec hg h2 io hio hid hfs (r := ((m id).1, nbrs)) (h.recs.hdim id hid) (by simp only; omega) lp hp kp
          (vec' := n.vec) (by
            intro x c hx hh
            unfold updRec
            by_cases hxi : x = id
            · rw [if_pos hxi]
              subst hxi
              exact h.vec x c hx hh
            · rw [if_neg hxi]
              exact h.vec x c hx hh)
        cases ew : p.writePage sh io (g.pageOffset id) pg with
        | ub => rw [ew] at hput; exact hput
        | throws p' =>
          simp only [ew] at hput
          refine ⟨hput.1, Or.inr (Or.inr hput.2), ?_⟩
          intro hn
          exact absurd hput.2 (by rintro ⟨o, ho⟩; exact ho (hn o))
        | ok p' =>
          simp only [ew] at hput
          obtain ⟨q1, q2, q3⟩ := hput
          refine ⟨by omega, ⟨_, q1⟩, by simp only; omega, ?_⟩
          intro hn clean hd
          exact q3 hn clean (dinv_step hd h.recs (h3 hn))
      · exfalso
        have := hrk.2 hrd
        omega


/-- A page that was obtained through the cache. -/
def PageOk (sh : Nat → Nat) (cap : Nat) (g : Geom) (dim deg : Nat) (io : Io) (n : Nodes) (latest : Disk) (m : Nat → Rec) (id : Nat) :
    Res (Option Bytes × PageIO) → Prop
  | .ub => False
  | .throws (b, p') => b = none ∧ NInv sh cap g dim deg { n with io := p' } latest m ∧
      ((∀ o, io o = none) → ∀ o, p'.disk o = n.io.disk o ∨ p'.disk o = latest o) ∧
      (n.io.fileSize < g.pageOffset id + g.pageSize ∨ ∃ o, io o ≠ none) ∧ n.io.fileSize = p'.fileSize
  | .ok (b, p') => b = some (latest (g.pageOffset id)) ∧ NInv sh cap g dim deg { n with io := p' } latest m ∧
      ((∀ o, io o = none) → ∀ o, p'.disk o = n.io.disk o ∨ p'.disk o = latest o) ∧ n.io.fileSize = p'.fileSize

theorem readPage_ok {sh : Nat → Nat} {cap : Nat} {g : Geom} {dim deg : Nat} {n : Nodes} {latest : Disk} {m : Nat → Rec}
    (h : NInv sh cap g dim deg n latest m) (io : Io) (id : Nat) :
    PageOk sh cap g dim deg io n latest m id (n.io.readPage sh g.pageSize io (g.pageOffset id)) := by
  have hr := readPage_spec (ps := g.pageSize) h.pages io (g.pageOffset id)
  cases e : n.io.readPage sh g.pageSize io (g.pageOffset id) with
  | ub => rw [e] at hr; exact hr
  | throws s =>
    obtain ⟨b, p⟩ := s
    rw [e] at hr
    obtain ⟨h1, h2, -, -, h5, h6⟩ := hr
    exact ⟨h1, h.withIo h2 (by omega) (readPage_keys h.pages h.inFile (fun hh => hh) (Or.inr e)).1,
      fun hn o => readPage_val h.pages hn (Or.inr e) o, h6, h5.symm⟩
  | ok s =>
    obtain ⟨b, p⟩ := s
    rw [e] at hr
    obtain ⟨h1, h2, -, -, h5⟩ := hr
    exact ⟨h1, h.withIo h2 (by omega) (readPage_keys h.pages h.inFile (fun hh => hh) (Or.inl e)).1,
      fun hn o => readPage_val h.pages hn (Or.inl e) o, h5.symm⟩

theorem fill_ok {sh : Nat → Nat} {cap ps : Nat} {p : PageIO} {latest : Disk} (h : GInv sh cap p latest) {io : Io} (hio : ∀ o, io o = none) {off : Nat}
    (hfs : off + ps ≤ p.fileSize) (buf : Bytes) (ver : Nat) (s : Option Bytes × PageIO) : p.fill sh ps io off buf ver ≠ .throws s := by
  intro e
  unfold PageIO.fill at e
  simp only at e
  have hi := h.shard (sh off)
  cases hrd : (p.caches (sh off)).read off with
  | some x => rw [hrd] at e; cases e
  | none =>
    rw [hrd] at e
    simp only at e
    by_cases hv : p.versions off ≠ ver
    · rw [if_pos hv] at e
      have hr := readPage_spec (ps := ps) h io off
      rw [e] at hr
      obtain ⟨-, -, -, -, -, h6 | ⟨o, h6⟩⟩ := hr
      · omega
      · exact h6 (hio o)
    · rw [if_neg hv] at e
      cases hwr : (p.caches (sh off)).write io p.disk off buf false with
      | ub => rw [hwr] at e; cases e
      | throws s => exact write_ok hi hio _ _ _ _ hwr
      | ok s => rw [hwr] at e; cases e

theorem snapshot_ok {sh : Nat → Nat} {cap : Nat} {g : Geom} {dim deg : Nat} {n : Nodes} {latest : Disk} {m : Nat → Rec}
    (h : NInv sh cap g dim deg n latest m) (io : Io) (id : Nat) :
    PageOk sh cap g dim deg io n latest m id (snapshotPage sh g io n.io (g.pageOffset id)) := by
  unfold snapshotPage
  have hp := peek_spec h.pages (g.pageOffset id)
  cases e : n.io.peek sh (g.pageOffset id) with
  | inl s =>
    obtain ⟨b, p⟩ := s
    rw [e] at hp
    obtain ⟨h1, h2, -, -, h5, h6⟩ := hp
    simp only
    refine ⟨by rw [h1], h.withIo h2 (by omega) (peek_keys h.pages h.inFile e).1, fun _ o => Or.inl (by rw [h5]), h6.symm⟩
  | inr v =>
    rw [e] at hp
    obtain ⟨hv, hm⟩ := hp
    simp only
    by_cases hfs : n.io.fileSize < g.pageOffset id + g.pageSize
    · rw [if_pos hfs]
      exact ⟨rfl, h.withIo h.pages (Nat.le_refl _) h.inFile, fun _ o => Or.inl rfl, Or.inl hfs, rfl⟩
    · rw [if_neg hfs]
      have hmiss := (h.pages.shard (sh (g.pageOffset id))).miss (g.pageOffset id) rfl hm
      have hf := fill_spec (ps := g.pageSize) h.pages io (g.pageOffset id) (n.io.disk (g.pageOffset id)) v (fun _ _ => hmiss)
      cases ef : n.io.fill sh g.pageSize io (g.pageOffset id) (n.io.disk (g.pageOffset id)) v with
      | ub => rw [ef] at hf; exact hf
      | throws s =>
        obtain ⟨b, p⟩ := s
        rw [ef] at hf
        obtain ⟨h1, h2, -, -, h5⟩ := hf
        refine ⟨h1, h.withIo h2 (by omega) (fill_keys h.pages h.inFile (by omega) (Or.inr ef)), fun hn o => fill_val h.pages hn (Or.inr ef) o, Or.inr ?_,
          h5.symm⟩
        apply Classical.byContradiction
        intro hno
        refine fill_ok h.pages (io := io) (fun o => ?_) (by omega) _ _ _ ef
        cases hx : io o with
        | none => rfl
        | some j => exact absurd ⟨o, by rw [hx]; simp⟩ hno
      | ok s =>
        obtain ⟨b, p⟩ := s
        rw [ef] at hf
        obtain ⟨h1, h2, -, -, h5⟩ := hf
        exact ⟨h1, h.withIo h2 (by omega) (fill_keys h.pages h.inFile (by omega) (Or.inl ef)), fun hn o => fill_val h.pages hn (Or.inl ef) o, h5.symm⟩

/-- Reading a record through a page. -/
theorem withPage_op {sh : Nat → Nat} {cap : Nat} {g : Geom} {dim deg : Nat} (hg : Good g dim deg) (hd32 : deg < 2 ^ 32) {n : Nodes} {latest : Disk}
    {m : Nat → Rec} {io : Io} {id : Nat} (hid : g.Addressable id) {res : Res (Option Bytes × PageIO)}
    (h : PageOk sh cap g dim deg io n latest m id res) :
    match n.withPage g id res with
    | .ub => False
    | .throws (r, n') => r = none ∧ NInv sh cap g dim deg n' latest m ∧ (n.io.fileSize < g.pageOffset id + g.pageSize ∨ ∃ o, io o ≠ none) ∧
        n'.io.fileSize = n.io.fileSize ∧
        ((∀ o, io o = none) → ∀ clean, DInv g n.io.disk m clean → DInv g n'.io.disk m clean)
    | .ok (r, n') => r = some (m id) ∧ NInv sh cap g dim deg n' latest m ∧ n'.io.fileSize = n.io.fileSize ∧
        ((∀ o, io o = none) → ∀ clean, DInv g n.io.disk m clean → DInv g n'.io.disk m clean) := by
  unfold Nodes.withPage
  cases res with
  | ub => exact h
  | throws s =>
    obtain ⟨b, p⟩ := s
    obtain ⟨h1, h2, h3, h4, h5⟩ := h
    exact ⟨rfl, h2, h4, h5.symm, fun hn clean hd => dinv_step hd h2.recs (h3 hn)⟩
  | ok s =>
    obtain ⟨b, p⟩ := s
    obtain ⟨h1, h2, h3, h5⟩ := h
    subst h1
    simp only
    rw [viewRec_of_holds hg hd32 (h2.recs.holds id hid) (h2.recs.hdim id hid) (h2.recs.hdeg id hid)]
    exact ⟨rfl, h2, h5.symm, fun hn clean hd => dinv_step hd h2.recs (h3 hn)⟩

theorem readCoords_op {sh : Nat → Nat} {cap : Nat} {g : Geom} {dim deg : Nat} (hg : Good g dim deg) (hd32 : deg < 2 ^ 32) {n : Nodes} {latest : Disk}
    {m : Nat → Rec} (h : NInv sh cap g dim deg n latest m) (io : Io) {id : Nat} (hid : g.Addressable id) :
    match n.readCoords sh g io id with
    | .ub => False
    | .throws (r, n') => r = none ∧ NInv sh cap g dim deg n' latest m ∧ (n.io.fileSize < g.pageOffset id + g.pageSize ∨ ∃ o, io o ≠ none) ∧
        n'.io.fileSize = n.io.fileSize ∧
        ((∀ o, io o = none) → ∀ clean, DInv g n.io.disk m clean → DInv g n'.io.disk m clean)
    | .ok (r, n') => r = some (m id).1 ∧ NInv sh cap g dim deg n' latest m ∧ n'.io.fileSize = n.io.fileSize ∧
        ((∀ o, io o = none) → ∀ clean, DInv g n.io.disk m clean → DInv g n'.io.disk m clean) := by
  unfold Nodes.readCoords
  cases hv : n.vec id with
  | some c => exact ⟨by rw [h.vec id c hid hv], h, rfl, fun _ _ hd => hd⟩
  | none =>
    simp only
    have hr := readPage_ok h io id
    cases e : n.io.readPage sh g.pageSize io (g.pageOffset id) with
    | ub => rw [e] at hr; exact hr
    | throws s =>
      obtain ⟨b, p⟩ := s
      rw [e] at hr
      obtain ⟨h1, h2, h3, h4, h5⟩ := hr
      exact ⟨rfl, h2, h4, h5.symm, fun hn clean hd => dinv_step hd h2.recs (h3 hn)⟩
    | ok s =>
      obtain ⟨b, p⟩ := s
      rw [e] at hr
      obtain ⟨h1, h2, h3, h5⟩ := hr
      subst h1
      simp only
      have hf := hg.fit
      have hdg := h.recs.hdeg id hid
      obtain ⟨v1, -, -⟩ := views_of_holds (h.recs.holds id hid) (h.recs.hdim id hid) (by omega) (by omega)
      rw [hg.hdim, v1]
      refine ⟨rfl, ⟨h2.pages, h2.recs, h2.zero, ?_, h2.inFile⟩, h5.symm, fun hn clean hd => dinv_step hd h2.recs (h3 hn)⟩
      intro x c hx hh
      simp only at hh
      by_cases hxi : x = id
      · rw [if_pos hxi] at hh
        injection hh with hh
        rw [hxi]; exact hh.symm
      · rw [if_neg hxi] at hh
        exact h.vec x c hx hh

theorem flush_val {sh : Nat → Nat} {cap : Nat} {latest : Disk} {io : Io} (hio : ∀ o, io o = none) : ∀ (orders : List (Nat × List Nat)) {p p' : PageIO}
    (_ : GInv sh cap p latest), PageIO.flush io orders p = .ok p' → ∀ o, p'.disk o = p.disk o ∨ p'.disk o = latest o
  | [], p, p', _, e, o => by injection e with e; subst e; exact Or.inl rfl
  | (s, order) :: rest, p, p', h, e, o => by
    have hone := flush_spec (sh := sh) (cap := cap) (latest := latest) io [(s, order)] h
    unfold PageIO.flush at e hone
    cases hf : flushDirty io order (p.caches s) p.disk with
    | ub => rw [hf] at e; cases e
    | throws x => rw [hf] at e; cases e
    | ok x =>
      rw [hf] at e hone
      simp only [PageIO.flush] at hone
      have hv := flushDirty_val hio order (h.shard s) x hf o
      rcases flush_val hio rest hone.1 e o with hh | hh
      · rw [hh]; exact hv
      · exact Or.inr hh

/-- Every cached page of every shard is visited. -/
def Covers (sh : Nat → Nat) (p : PageIO) (orders : List (Nat × List Nat)) : Prop :=
  ∀ o, o ∈ (p.caches (sh o)).pages.map (·.1) → ∃ order, (sh o, order) ∈ orders ∧ o ∈ order

theorem flush_op {sh : Nat → Nat} {cap : Nat} {g : Geom} {dim deg : Nat} {n : Nodes} {latest : Disk} {m : Nat → Rec}
    (h : NInv sh cap g dim deg n latest m) (io : Io) (orders : List (Nat × List Nat)) :
    match n.flush io orders with
    | .ub => False
    | .throws n' => NInv sh cap g dim deg n' latest m ∧ n'.io.fileSize = n.io.fileSize
    | .ok n' => NInv sh cap g dim deg n' latest m ∧ n'.io.fileSize = n.io.fileSize ∧ (Covers sh n.io orders → n'.io.disk = latest) ∧
        ((∀ o, io o = none) → ∀ clean, DInv g n.io.disk m clean → DInv g n'.io.disk m clean) := by
  unfold Nodes.flush
  have hs := flush_spec io orders h.pages
  cases e : PageIO.flush io orders n.io with
  | ub => rw [e] at hs; exact hs
  | throws p =>
    rw [e] at hs
    exact ⟨h.withIo hs.1 (by omega) (flush_keys io orders _ _ h.inFile (Or.inr e)), hs.2.2.2⟩
  | ok p =>
    rw [e] at hs
    obtain ⟨h1, -, -, h4, h5, h6⟩ := hs
    refine ⟨h.withIo h1 (by omega) (flush_keys io orders _ _ h.inFile (Or.inl e)), h4, ?_, ?_⟩
    · intro hall
      funext off
      have hc := h1.shard (sh off)
      simp only
      cases hfd : (p.caches (sh off)).pages.find off with
      | none => exact hc.miss off rfl hfd
      | some y =>
        have he := hc.entry off y hfd
        have hk : off ∈ (n.io.caches (sh off)).pages.map (·.1) := by
          have := find_some_mem hfd
          rw [h6] at this
          exact this
        obtain ⟨order, m1, m2⟩ := hall off hk
        have hnd := h5 off ⟨sh off, order, m1, rfl, m2⟩
        cases hd : y.dirty with
        | true => exact absurd ⟨y, hfd, hd⟩ hnd
        | false => rw [he.2 hd, he.1]
    · intro hio clean hd
      exact dinv_step hd h.recs (flush_val hio orders h.pages e)

end Alaya.DiskNodes
