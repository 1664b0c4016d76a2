import Verif.Lemmas.NodeCache

namespace Alaya.NodeCache
open Alaya.DiskLayout Alaya.DiskPages Alaya.DiskNodes
open Alaya.DiskSlots (Out)
open Alaya.Seq (slice)

/-- No cached record for the node. -/
def Uncached (c : NCache) (id : Nat) : Prop := assoc id c.over = none ∧ assoc id c.map = none

/-- Pages, cache and device against the records `m`. -/
structure StoreInv (sh : Nat → Nat) (cap : Nat) (g : Geom) (dim deg : Nat) (s : Store) (m : Nat → Rec) : Prop where
  nodes : ∃ latest, NInv sh cap g dim deg s.nodes latest m
  cache : CacheInv g dim deg s.cache m
  disk : DInv g s.nodes.io.disk m (Uncached s.cache)

theorem dinv_mono {g : Geom} {d : Disk} {m : Nat → Rec} {p q : Nat → Prop} (h : DInv g d m p) (hi : ∀ id, q id → p id) : DInv g d m q :=
  fun id hid hq => h id hid (hi id hq)

/-- Only the pages moved. -/
theorem StoreInv.withNodes {sh : Nat → Nat} {cap : Nat} {g : Geom} {dim deg : Nat} {s : Store} {m : Nat → Rec} (h : StoreInv sh cap g dim deg s m)
    {n : Nodes} (hn : ∃ latest, NInv sh cap g dim deg n latest m) (hd : DInv g n.io.disk m (Uncached s.cache)) :
    StoreInv sh cap g dim deg { s with nodes := n } m := ⟨hn, h.cache, hd⟩

theorem insert_spec {sh : Nat → Nat} {cap : Nat} {g : Geom} {dim deg : Nat} (hg : Good g dim deg) {s : Store} {m : Nat → Rec}
    (h : StoreInv sh cap g dim deg s m) {io : Io} (hio : ∀ o, io o = none) {slot : Nat} (hid : g.Addressable slot) (hid32 : slot < 2 ^ 32)
    {coords nbrs : List (BitVec 32)} (hc : coords.length = dim) :
    match s.insert sh g io slot coords nbrs with
    | .ub => False
    | .throws s' => StoreInv sh cap g dim deg s' m ∧ deg < nbrs.length
    | .ok s' => StoreInv sh cap g dim deg s' (updRec m slot (coords, nbrs)) := by
  obtain ⟨l, hl⟩ := h.nodes
  unfold Store.insert
  have hw := writeNode_op hg hl io (fun _ => hio) hid hc (nbrs := nbrs)
  cases e : s.nodes.writeNode sh g io slot coords nbrs with
  | ub => rw [e] at hw; exact hw
  | throws n =>
    rw [e] at hw
    obtain ⟨w1, w2, w3⟩ := hw
    refine ⟨h.withNodes ⟨l, w1⟩ (w3 hio _ h.disk), ?_⟩
    rcases w2 with w2 | ⟨o, w2⟩
    · exact w2
    · exact absurd (hio o) w2
  | ok n =>
    rw [e] at hw
    obtain ⟨w1, w2, -, w3⟩ := hw
    simp only
    obtain ⟨c', e', i', m', o'⟩ := upsert_spec hg h.cache hid hid32 hc w1
    rw [e']
    refine ⟨w2, i', dinv_mono (w3 hio _ h.disk) ?_⟩
    intro id ⟨u1, u2⟩
    obtain ⟨u3, u4⟩ := (o' id).1 u1
    simp only [m'] at u2
    exact ⟨⟨u4, u2⟩, u3⟩

theorem relink_spec {sh : Nat → Nat} {cap : Nat} {g : Geom} {dim deg : Nat} (hg : Good g dim deg) (hd32 : deg < 2 ^ 32) {s : Store} {m : Nat → Rec}
    (h : StoreInv sh cap g dim deg s m) {io : Io} (hio : ∀ o, io o = none) {id : Nat} (hid : g.Addressable id) (hid32 : id < 2 ^ 32)
    {nbrs : List (BitVec 32)} :
    match s.relink sh g io id nbrs with
    | .ub => False
    | .throws s' => StoreInv sh cap g dim deg s' m ∧ (deg < nbrs.length ∨ s.nodes.io.fileSize < g.pageOffset id + g.pageSize)
    | .ok s' => StoreInv sh cap g dim deg s' (updRec m id ((m id).1, nbrs)) := by
  obtain ⟨l, hl⟩ := h.nodes
  unfold Store.relink
  have hw := writeNeighbors_op hg hl io (fun _ => hio) hid (nbrs := nbrs)
  cases e : s.nodes.writeNeighbors sh g io id nbrs with
  | ub => rw [e] at hw; exact hw
  | throws n =>
    rw [e] at hw
    obtain ⟨w1, w2, w3⟩ := hw
    refine ⟨h.withNodes ⟨l, w1⟩ (w3 hio _ h.disk), ?_⟩
    rcases w2 with w2 | w2 | ⟨o, w2⟩
    · exact Or.inl w2
    · exact Or.inr w2
    · exact absurd (hio o) w2
  | ok n =>
    rw [e] at hw
    obtain ⟨w1, ⟨l', w2⟩, wf, w3⟩ := hw
    simp only
    have hrd := hl.recs.hdim id hid
    obtain ⟨c', e', i', m', o'⟩ := upsert_spec hg h.cache hid hid32 hrd w1
    have hclean := dinv_mono (q := Uncached c') (w3 hio _ h.disk) (by
      intro x ⟨u1, u2⟩
      obtain ⟨u3, u4⟩ := (o' x).1 u1
      simp only [m'] at u2
      exact ⟨⟨u4, u2⟩, u3⟩)
    unfold Store.mirror
    have hs := lookup_spec h.cache id
    cases el : s.cache.lookup id with
    | ub => rw [el] at hs; exact hs
    | throws => rw [el] at hs; exact hs.elim
    | ok o =>
      cases o with
      | some r =>
        rw [el] at hs
        simp only
        rw [(view_record hg hd32 hs.2.1 hrd (hl.recs.hdeg id hid)).1]
        simp only
        rw [e']
        exact ⟨⟨l', w2⟩, i', hclean⟩
      | none =>
        simp only
        have hrc := readCoords_op hg hd32 w2 io hid
        have hm : (updRec m id ((m id).1, nbrs) id).1 = (m id).1 := by unfold updRec; rw [if_pos rfl]
        cases er : n.readCoords sh g io id with
        | ub => rw [er] at hrc; exact hrc
        | throws x =>
          rw [er] at hrc
          obtain ⟨-, -, hh | ⟨o, hh⟩, -⟩ := hrc
          · omega
          · exact absurd (hio o) hh
        | ok x =>
          obtain ⟨r, n'⟩ := x
          rw [er] at hrc
          obtain ⟨r1, r2, -, r4⟩ := hrc
          rw [hm] at r1
          subst r1
          simp only
          rw [e']
          exact ⟨⟨l', r2⟩, i', r4 hio _ hclean⟩

theorem flush_spec {sh : Nat → Nat} {cap : Nat} {g : Geom} {dim deg : Nat} {s : Store} {m : Nat → Rec} (h : StoreInv sh cap g dim deg s m)
    {io : Io} (hio : ∀ o, io o = none) {orders : List (Nat × List Nat)} (hcov : Covers sh s.nodes.io orders) :
    ∃ s', s.flush io orders = .ok s' ∧ StoreInv sh cap g dim deg s' m ∧ DInv g s'.nodes.io.disk m (fun _ => True) ∧ s'.cache = s.cache.dropOverrides ∧
      NInv sh cap g dim deg s'.nodes s'.nodes.io.disk m := by
  obtain ⟨l, hl⟩ := h.nodes
  unfold Store.flush
  have hw := flush_op hl io orders
  cases e : s.nodes.flush io orders with
  | ub => rw [e] at hw; exact hw.elim
  | throws n =>
    exfalso
    unfold Nodes.flush at e
    have : ∀ (orders : List (Nat × List Nat)) (p : PageIO), ∃ p', PageIO.flush io orders p = .ok p' := by
      intro orders
      induction orders with
      | nil => exact fun p => ⟨p, rfl⟩
      | cons x rest ih =>
        intro p
        obtain ⟨s, order⟩ := x
        have hfd : ∀ (order : List Nat) (c : Cache) (d : Disk), ∃ s, flushDirty io order c d = .ok s := by
          intro order
          induction order with
          | nil => exact fun c d => ⟨_, rfl⟩
          | cons o rest ih =>
            intro c d
            unfold flushDirty
            cases hh : c.pages.find o with
            | none => exact ih c d
            | some y =>
              simp only [pwrite, hio]
              by_cases hd : y.dirty = true
              · rw [if_pos hd]; exact ih _ _
              · rw [if_neg hd]; exact ih c d
        unfold PageIO.flush
        obtain ⟨⟨c, d⟩, hs⟩ := hfd order (p.caches s) p.disk
        rw [hs]
        exact ih _
    obtain ⟨p', hp'⟩ := this orders s.nodes.io
    rw [hp'] at e; cases e
  | ok n =>
    rw [e] at hw
    obtain ⟨w1, -, w3, -⟩ := hw
    have hd : DInv g n.io.disk m (fun _ => True) := by
      rw [w3 hcov]
      exact fun id hid _ => hl.recs.holds id hid
    refine ⟨_, rfl, ⟨⟨l, w1⟩, drop_spec h.cache, dinv_mono hd (fun _ _ => trivial)⟩, hd, rfl, ?_⟩
    simp only
    rw [w3 hcov]
    exact w1

/-- What a search sees. -/
theorem seenIn_spec {sh : Nat → Nat} {cap : Nat} {g : Geom} {dim deg : Nat} (hg : Good g dim deg) (hd32 : deg < 2 ^ 32) {s : Store} {m : Nat → Rec}
    (h : StoreInv sh cap g dim deg s m) {id : Nat} (hid : g.Addressable id) {page : Bytes}
    (hp : Uncached s.cache id → Holds page (g.offsetToNode id) (m id).1 (m id).2) : s.seenIn g id page = .ok (m id) := by
  obtain ⟨l, hl⟩ := h.nodes
  have hs := lookup_spec h.cache id
  unfold Store.seenIn
  cases el : s.cache.lookup id with
  | ub => rw [el] at hs; exact hs.elim
  | throws => rw [el] at hs; exact hs.elim
  | ok o =>
    cases o with
    | some r =>
      rw [el] at hs
      have hv := view_record hg hd32 hs.2.1 (hl.recs.hdim id hid) (hl.recs.hdeg id hid)
      simp only [hv.1, hv.2]
    | none =>
      rw [el] at hs
      exact viewRec_of_holds hg hd32 (hp hs) (hl.recs.hdim id hid) (hl.recs.hdeg id hid)

end Alaya.NodeCache
