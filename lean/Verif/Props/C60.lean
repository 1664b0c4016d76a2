import Verif.Lemmas.DiskNodeOps

/-!
C60 — the node store of an updatable disk index.  Specification: a map from node ids to (vector, neighbours); `write_node` replaces an
entry, `write_node_neighbors` its second half, nothing else changes it.
-/

namespace Alaya.DiskNodes
open Alaya.DiskLayout Alaya.DiskPages
open Alaya.DiskSlots (Out)

/-- A well-formed file: every page has the page size, the slot of every node holds the bytes of its record, and pages past the end of the
file read as zeros once the file is extended. -/
structure FileOk (g : Geom) (dim deg : Nat) (d0 : Disk) (fs : Nat) (m0 : Nat → Rec) : Prop where
  recs : RecInv g dim deg d0 m0
  zero : ∀ id, g.Addressable id → fs < g.pageOffset id + g.pageSize → d0 (g.pageOffset id) = List.replicate g.pageSize 0

/-- Histories of node operations; device writes may fail anywhere, except without a page cache (capacity 0). -/
inductive NHist (sh : Nat → Nat) (cap : Nat) (g : Geom) (dim deg : Nat) (d0 : Disk) (fs : Nat) (m0 : Nat → Rec) : Nodes → (Nat → Rec) → Prop
  | init : NHist sh cap g dim deg d0 fs m0 ⟨PageIO.open' cap d0 fs, fun _ => none⟩ m0
  | write {n n' : Nodes} {m : Nat → Rec} {io : Io} {id : Nat} {coords nbrs : List (BitVec 32)} : NHist sh cap g dim deg d0 fs m0 n m →
      (cap = 0 → ∀ o, io o = none) → g.Addressable id → coords.length = dim → n.writeNode sh g io id coords nbrs = .ok n' →
      NHist sh cap g dim deg d0 fs m0 n' (fun x => if x = id then (coords, nbrs) else m x)
  | writeThrows {n n' : Nodes} {m : Nat → Rec} {io : Io} {id : Nat} {coords nbrs : List (BitVec 32)} : NHist sh cap g dim deg d0 fs m0 n m →
      (cap = 0 → ∀ o, io o = none) → g.Addressable id → coords.length = dim → n.writeNode sh g io id coords nbrs = .throws n' →
      NHist sh cap g dim deg d0 fs m0 n' m
  | relink {n n' : Nodes} {m : Nat → Rec} {io : Io} {id : Nat} {nbrs : List (BitVec 32)} : NHist sh cap g dim deg d0 fs m0 n m →
      (cap = 0 → ∀ o, io o = none) → g.Addressable id → n.writeNeighbors sh g io id nbrs = .ok n' →
      NHist sh cap g dim deg d0 fs m0 n' (fun x => if x = id then ((m id).1, nbrs) else m x)
  | relinkThrows {n n' : Nodes} {m : Nat → Rec} {io : Io} {id : Nat} {nbrs : List (BitVec 32)} : NHist sh cap g dim deg d0 fs m0 n m →
      (cap = 0 → ∀ o, io o = none) → g.Addressable id → n.writeNeighbors sh g io id nbrs = .throws n' →
      NHist sh cap g dim deg d0 fs m0 n' m
  | read {n n' : Nodes} {m : Nat → Rec} {io : Io} {id : Nat} {r : Option Rec} : NHist sh cap g dim deg d0 fs m0 n m → g.Addressable id →
      (n.readNode sh g io id = .ok (r, n') ∨ n.readNode sh g io id = .throws (r, n')) → NHist sh cap g dim deg d0 fs m0 n' m
  | snapshot {n n' : Nodes} {m : Nat → Rec} {io : Io} {id : Nat} {r : Option Rec} : NHist sh cap g dim deg d0 fs m0 n m → g.Addressable id →
      (n.readSnapshot sh g io id = .ok (r, n') ∨ n.readSnapshot sh g io id = .throws (r, n')) → NHist sh cap g dim deg d0 fs m0 n' m
  | coords {n n' : Nodes} {m : Nat → Rec} {io : Io} {id : Nat} {r : Option (List (BitVec 32))} : NHist sh cap g dim deg d0 fs m0 n m →
      g.Addressable id → (n.readCoords sh g io id = .ok (r, n') ∨ n.readCoords sh g io id = .throws (r, n')) →
      NHist sh cap g dim deg d0 fs m0 n' m
  | clear {n : Nodes} {m : Nat → Rec} : NHist sh cap g dim deg d0 fs m0 n m → NHist sh cap g dim deg d0 fs m0 n.clearVec m
  | flush {n n' : Nodes} {m : Nat → Rec} {io : Io} {orders : List (Nat × List Nat)} : NHist sh cap g dim deg d0 fs m0 n m →
      (n.flush io orders = .ok n' ∨ n.flush io orders = .throws n') → NHist sh cap g dim deg d0 fs m0 n' m

theorem nhist_inv {sh : Nat → Nat} {cap : Nat} {g : Geom} {dim deg : Nat} {d0 : Disk} {fs : Nat} {m0 : Nat → Rec} {n : Nodes} {m : Nat → Rec}
    (hg : Good g dim deg) (hd32 : deg < 2 ^ 32) (hf : FileOk g dim deg d0 fs m0) (h : NHist sh cap g dim deg d0 fs m0 n m) :
    ∃ latest, NInv sh cap g dim deg n latest m := by
  induction h with
  | init =>
    exact ⟨d0, open_inv sh cap d0 fs, hf.recs, hf.zero, (fun _ _ _ hh => by cases hh), (fun s o ho => by cases ho)⟩
  | write _ hio hid hc e ih =>
    obtain ⟨l, hl⟩ := ih
    rename_i io id coords nbrs _
    have := writeNode_op hg hl io hio hid hc (nbrs := nbrs)
    rw [e] at this
    exact this.2.1
  | writeThrows _ hio hid hc e ih =>
    obtain ⟨l, hl⟩ := ih
    rename_i io id coords nbrs _
    have := writeNode_op hg hl io hio hid hc (nbrs := nbrs)
    rw [e] at this
    exact ⟨l, this.1⟩
  | relink _ hio hid e ih =>
    obtain ⟨l, hl⟩ := ih
    rename_i io id nbrs _
    have := writeNeighbors_op hg hl io hio hid (nbrs := nbrs)
    rw [e] at this
    exact this.2.1
  | relinkThrows _ hio hid e ih =>
    obtain ⟨l, hl⟩ := ih
    rename_i io id nbrs _
    have := writeNeighbors_op hg hl io hio hid (nbrs := nbrs)
    rw [e] at this
    exact ⟨l, this.1⟩
  | read _ hid e ih =>
    obtain ⟨l, hl⟩ := ih
    rename_i io id r _
    have := withPage_op hg hd32 hid (readPage_ok hl io id)
    unfold Nodes.readNode at e
    rcases e with e | e <;> rw [e] at this
    · exact ⟨l, this.2.1⟩
    · exact ⟨l, this.2.1⟩
  | snapshot _ hid e ih =>
    obtain ⟨l, hl⟩ := ih
    rename_i io id r _
    have := withPage_op hg hd32 hid (snapshot_ok hl io id)
    unfold Nodes.readSnapshot at e
    rcases e with e | e <;> rw [e] at this
    · exact ⟨l, this.2.1⟩
    · exact ⟨l, this.2.1⟩
  | coords _ hid e ih =>
    obtain ⟨l, hl⟩ := ih
    rename_i io id r _
    have := readCoords_op hg hd32 hl io hid
    rcases e with e | e <;> rw [e] at this
    · exact ⟨l, this.2.1⟩
    · exact ⟨l, this.2.1⟩
  | clear _ ih =>
    obtain ⟨l, hl⟩ := ih
    exact ⟨l, hl.pages, hl.recs, hl.zero, (fun _ _ _ hh => by cases hh), hl.inFile⟩
  | flush _ e ih =>
    obtain ⟨l, hl⟩ := ih
    rename_i io orders _
    have := flush_op hl io orders
    rcases e with e | e <;> rw [e] at this
    · exact ⟨l, this.1⟩
    · exact ⟨l, this.1⟩

/-- Every way of reading a node returns what the history last wrote for it, in particular records sharing its page are untouched. -/
theorem C60_read_latest {sh : Nat → Nat} {cap : Nat} {dim deg : Nat} {g : Geom} {d0 : Disk} {fs : Nat} {m0 : Nat → Rec} {n : Nodes} {m : Nat → Rec}
    (hfit : 0 < dim ∧ dim * 4 + 4 + deg * 4 + 4095 < 2 ^ 64) (hd32 : deg < 2 ^ 32) (hg : compute dim deg = .ok g) (hf : FileOk g dim deg d0 fs m0)
    (h : NHist sh cap g dim deg d0 fs m0 n m) {id : Nat} (hid : g.Addressable id) (io : Io) :
    (∀ r n', n.readNode sh g io id = .ok (r, n') → r = some (m id)) ∧
    (∀ r n', n.readSnapshot sh g io id = .ok (r, n') → r = some (m id)) ∧
    (∀ r n', n.readCoords sh g io id = .ok (r, n') → r = some (m id).1) := by
  obtain ⟨g', e', hgood⟩ := compute_good hfit.1 hfit.2
  rw [hg] at e'; injection e' with e'; subst e'
  obtain ⟨l, hl⟩ := nhist_inv hgood hd32 hf h
  refine ⟨?_, ?_, ?_⟩
  · intro r n' e
    have := withPage_op hgood hd32 hid (readPage_ok hl io id)
    unfold Nodes.readNode at e
    rw [e] at this; exact this.1
  · intro r n' e
    have := withPage_op hgood hd32 hid (snapshot_ok hl io id)
    unfold Nodes.readSnapshot at e
    rw [e] at this; exact this.1
  · intro r n' e
    have := readCoords_op hgood hd32 hl io hid
    rw [e] at this; exact this.1

/-- No operation is undefined.  Over a device that does not fail, writing a node throws exactly when it has too many neighbours (the file is
extended when needed), and reading a node inside the file does not throw. -/
theorem C60_total {sh : Nat → Nat} {cap : Nat} {dim deg : Nat} {g : Geom} {d0 : Disk} {fs : Nat} {m0 : Nat → Rec} {n : Nodes} {m : Nat → Rec}
    (hfit : 0 < dim ∧ dim * 4 + 4 + deg * 4 + 4095 < 2 ^ 64) (hd32 : deg < 2 ^ 32) (hg : compute dim deg = .ok g) (hf : FileOk g dim deg d0 fs m0)
    (h : NHist sh cap g dim deg d0 fs m0 n m) {id : Nat} (hid : g.Addressable id) (io : Io) (hio : cap = 0 → ∀ o, io o = none) :
    (∀ coords nbrs, coords.length = dim → n.writeNode sh g io id coords nbrs ≠ .ub) ∧ (∀ nbrs, n.writeNeighbors sh g io id nbrs ≠ .ub) ∧
    n.readNode sh g io id ≠ .ub ∧ n.readSnapshot sh g io id ≠ .ub ∧ n.readCoords sh g io id ≠ .ub ∧ (∀ orders, n.flush io orders ≠ .ub) ∧
    ((∀ o, io o = none) → (∀ coords nbrs, coords.length = dim → ((∃ n', n.writeNode sh g io id coords nbrs = .throws n') ↔ deg < nbrs.length)) ∧
      (g.pageOffset id + g.pageSize ≤ n.io.fileSize → ∃ n', n.readNode sh g io id = .ok (some (m id), n'))) := by
  obtain ⟨g', e', hgood⟩ := compute_good hfit.1 hfit.2
  rw [hg] at e'; injection e' with e'; subst e'
  obtain ⟨l, hl⟩ := nhist_inv hgood hd32 hf h
  refine ⟨?_, ?_, ?_, ?_, ?_, ?_, ?_⟩
  · intro coords nbrs hc e
    have := writeNode_op hgood hl io hio hid hc (nbrs := nbrs)
    rw [e] at this; exact this
  · intro nbrs e
    have := writeNeighbors_op hgood hl io hio hid (nbrs := nbrs)
    rw [e] at this; exact this
  · intro e
    have := withPage_op hgood hd32 hid (readPage_ok hl io id)
    unfold Nodes.readNode at e
    rw [e] at this; exact this
  · intro e
    have := withPage_op hgood hd32 hid (snapshot_ok hl io id)
    unfold Nodes.readSnapshot at e
    rw [e] at this; exact this
  · intro e
    have := readCoords_op hgood hd32 hl io hid
    rw [e] at this; exact this
  · intro orders e
    have := flush_op hl io orders
    rw [e] at this; exact this
  · intro hn
    refine ⟨?_, ?_⟩
    · intro coords nbrs hc
      have hw := writeNode_op hgood hl io hio hid hc (nbrs := nbrs)
      refine ⟨?_, ?_⟩
      · rintro ⟨n', e⟩
        rw [e] at hw
        rcases hw.2.1 with hh | ⟨o, hh⟩
        · exact hh
        · exact absurd (hn o) hh
      · intro hlt
        unfold Nodes.writeNode
        rw [if_pos (by rw [hgood.hdeg]; exact hlt)]
        exact ⟨_, rfl⟩
    · intro hfs
      have hw := withPage_op hgood hd32 hid (readPage_ok hl io id)
      cases e : n.readNode sh g io id with
      | ub => unfold Nodes.readNode at e; rw [e] at hw; exact hw.elim
      | throws s =>
        unfold Nodes.readNode at e; rw [e] at hw
        obtain ⟨-, -, h3 | ⟨o, h3⟩, -⟩ := hw
        · omega
        · exact absurd (hn o) h3
      | ok s =>
        obtain ⟨r, n'⟩ := s
        unfold Nodes.readNode at e; rw [e] at hw
        exact ⟨n', by rw [hw.1]⟩

/-- After a complete flush that returned, the device itself holds the last record of every node. -/
theorem C60_flush_durable {sh : Nat → Nat} {cap : Nat} {dim deg : Nat} {g : Geom} {d0 : Disk} {fs : Nat} {m0 : Nat → Rec} {n n' : Nodes}
    {m : Nat → Rec} (hfit : 0 < dim ∧ dim * 4 + 4 + deg * 4 + 4095 < 2 ^ 64) (hd32 : deg < 2 ^ 32) (hg : compute dim deg = .ok g)
    (hf : FileOk g dim deg d0 fs m0) (h : NHist sh cap g dim deg d0 fs m0 n m) {io : Io} {orders : List (Nat × List Nat)}
    (hall : ∀ o, o ∈ (n.io.caches (sh o)).pages.map (·.1) → ∃ order, (sh o, order) ∈ orders ∧ o ∈ order) (e : n.flush io orders = .ok n') :
    (∀ id, g.Addressable id → viewRec g (n'.io.disk (g.pageOffset id)) id = .ok (m id)) ∧
    FileOk g dim deg n'.io.disk n'.io.fileSize m := by
  obtain ⟨g', e', hgood⟩ := compute_good hfit.1 hfit.2
  rw [hg] at e'; injection e' with e'; subst e'
  obtain ⟨l, hl⟩ := nhist_inv hgood hd32 hf h
  have := flush_op hl io orders
  rw [e] at this
  obtain ⟨h1, -, h3, -⟩ := this
  rw [h3 hall]
  exact ⟨fun id hid => viewRec_of_holds hgood hd32 (hl.recs.holds id hid) (hl.recs.hdim id hid) (hl.recs.hdeg id hid), h1.recs, h1.zero⟩

section Witness

/-- A file of zeros: every node is a zero vector without neighbours. -/
theorem zeros_ok {g : Geom} {dim deg : Nat} (hg : Good g dim deg) (fs : Nat) :
    FileOk g dim deg (fun _ => List.replicate g.pageSize 0) fs (fun _ => (List.replicate dim 0, [])) := by
  refine ⟨⟨fun _ _ => by simp, ?_, fun _ _ => by simp, fun _ _ => by simp⟩, fun _ _ _ => rfl⟩
  intro id hid
  have hs := slot_fits hg id
  have hl := hg.len
  rw [← hg.offset] at hs
  unfold Holds Alaya.Seq.slice recBytes
  simp only [List.length_replicate, List.length_nil, Nat.zero_mul, Nat.add_zero]
  rw [List.drop_replicate, List.take_replicate, Nat.min_eq_left (by omega)]
  have : ∀ k, le32s (List.replicate k 0) = List.replicate (k * 4) 0 := by
    intro k
    induction k with
    | zero => rfl
    | succ k ih =>
      rw [List.replicate_succ]
      unfold le32s at *
      rw [List.flatMap_cons, ih, Nat.succ_mul, Nat.add_comm, ← List.replicate_append_replicate]
      rfl
  rw [this, ← List.replicate_append_replicate]
  rfl

/-- Non-vacuous: dimension 1, degree 2; a fresh node is written behind the end of the file and read back. -/
example : ∃ g, compute 1 2 = .ok g ∧ ∃ n m, NHist (fun _ => 0) 1 g 1 2 (fun _ => List.replicate g.pageSize 0) 4096 (fun _ => (List.replicate 1 0, [])) n m ∧
    m 0 = ([7], [1, 2]) := by
  obtain ⟨g, e, hg⟩ := compute_good (dim := 1) (deg := 2) (by omega) (by omega)
  refine ⟨g, e, ?_⟩
  have hid : g.Addressable 0 := by
    have := hg.page
    unfold Geom.Addressable
    rw [this, hg.len, hg.nps]
    decide
  have h0 : NHist (fun _ => 0) 1 g 1 2 (fun _ => List.replicate g.pageSize 0) 4096 (fun _ => (List.replicate 1 0, [])) _ _ := .init
  obtain ⟨l, hl⟩ := nhist_inv hg (by omega) (zeros_ok hg 4096) h0
  have hw := writeNode_op hg hl (fun _ => none) (fun _ _ => rfl) hid (coords := [7]) (nbrs := [1, 2]) rfl
  cases ew : Nodes.writeNode (fun _ => 0) g (fun _ => none) ⟨PageIO.open' 1 (fun _ => List.replicate g.pageSize 0) 4096, fun _ => none⟩ 0 [7] [1, 2] with
  | ub => rw [ew] at hw; exact hw.elim
  | throws n' =>
    rw [ew] at hw
    obtain ⟨-, hh | ⟨o, hh⟩, -⟩ := hw
    · exact absurd hh (by decide)
    · exact absurd rfl hh
  | ok n' => exact ⟨n', _, .write h0 (fun _ _ => rfl) hid rfl ew, rfl⟩

end Witness

end Alaya.DiskNodes
