import Verif.Props.C60
import Verif.Lemmas.NodeStore
import Verif.Lemmas.NodeCacheFiles

/-!
C44 — what a search sees of a node.  Specification: the map from node ids to (vector, neighbours) that `write_inserted_node` and
`prune_and_write` change; a search asks the node cache first and, on a miss, looks at the page.
-/

namespace Alaya.NodeCache
open Alaya.DiskLayout Alaya.DiskPages Alaya.DiskNodes
open Alaya.DiskSlots (Out)

/-- A fresh `NodeCache` after `configure_geometry`. node_cache.hpp:244-262 -/
def fresh (g : Geom) : NCache := ⟨g.dim, g.deg, g.nodeLen, [], [], [], []⟩

/-- Histories of the record operations of an index over a device that does not fail: opened with an empty or a generated cache, then inserts,
neighbour rewrites, reads, complete flushes, and restarts (save and load of the cache) right after a flush.  `m` is the specification. -/
inductive SHist (sh : Nat → Nat) (cap : Nat) (g : Geom) (dim deg : Nat) : Store → (Nat → Rec) → Prop
  | opened {d0 : Disk} {fs : Nat} {m0 : Nat → Rec} : FileOk g dim deg d0 fs m0 →
      SHist sh cap g dim deg ⟨⟨PageIO.open' cap d0 fs, fun _ => none⟩, fresh g⟩ m0
  | generated {d0 : Disk} {fs : Nat} {m0 : Nat → Rec} {graph : List (List Nat)} {vectors : List (BitVec 32)} {medoid n want : Nat} {c : NCache} :
      FileOk g dim deg d0 fs m0 → graph.length = n → medoid < n → n * dim ≤ vectors.length → n ≤ 2 ^ 32 → (∀ id, id < n → g.Addressable id) →
      (∀ id, id < n → m0 id = ((vectors.drop (id * dim)).take dim, ((graph[id]?.getD []).map (BitVec.ofNat 32)).take deg)) →
      generate graph vectors medoid n dim deg want = .ok c →
      SHist sh cap g dim deg ⟨⟨PageIO.open' cap d0 fs, fun _ => none⟩, c⟩ m0
  | insert {s s' : Store} {m : Nat → Rec} {io : Io} {id : Nat} {coords nbrs : List (BitVec 32)} : SHist sh cap g dim deg s m → (∀ o, io o = none) →
      g.Addressable id → id < 2 ^ 32 → coords.length = dim → s.insert sh g io id coords nbrs = .ok s' →
      SHist sh cap g dim deg s' (fun x => if x = id then (coords, nbrs) else m x)
  | relink {s s' : Store} {m : Nat → Rec} {io : Io} {id : Nat} {nbrs : List (BitVec 32)} : SHist sh cap g dim deg s m → (∀ o, io o = none) →
      g.Addressable id → id < 2 ^ 32 → s.relink sh g io id nbrs = .ok s' →
      SHist sh cap g dim deg s' (fun x => if x = id then ((m id).1, nbrs) else m x)
  | rejected {s s' : Store} {m : Nat → Rec} {io : Io} {id : Nat} {coords nbrs : List (BitVec 32)} : SHist sh cap g dim deg s m → (∀ o, io o = none) →
      g.Addressable id → id < 2 ^ 32 → coords.length = dim →
      (s.insert sh g io id coords nbrs = .throws s' ∨ s.relink sh g io id nbrs = .throws s') → SHist sh cap g dim deg s' m
  | read {s : Store} {n' : Nodes} {m : Nat → Rec} {io : Io} {id : Nat} {r : Option Rec} : SHist sh cap g dim deg s m → (∀ o, io o = none) →
      g.Addressable id → (s.nodes.readNode sh g io id = .ok (r, n') ∨ s.nodes.readSnapshot sh g io id = .ok (r, n')) →
      SHist sh cap g dim deg ⟨n', s.cache⟩ m
  | coords {s : Store} {n' : Nodes} {m : Nat → Rec} {io : Io} {id : Nat} {r : Option (List (BitVec 32))} : SHist sh cap g dim deg s m →
      (∀ o, io o = none) → g.Addressable id → s.nodes.readCoords sh g io id = .ok (r, n') → SHist sh cap g dim deg ⟨n', s.cache⟩ m
  | clear {s : Store} {m : Nat → Rec} : SHist sh cap g dim deg s m → SHist sh cap g dim deg ⟨s.nodes.clearVec, s.cache⟩ m
  | flush {s s' : Store} {m : Nat → Rec} {io : Io} {orders : List (Nat × List Nat)} : SHist sh cap g dim deg s m → (∀ o, io o = none) →
      (∀ o, o ∈ (s.nodes.io.caches (sh o)).pages.map (·.1) → ∃ order, (sh o, order) ∈ orders ∧ o ∈ order) → s.flush io orders = .ok s' →
      SHist sh cap g dim deg s' m
  | restart {s s' : Store} {m : Nat → Rec} {io : Io} {orders : List (Nat × List Nat)} {fi fn : Bytes} {c : NCache} : SHist sh cap g dim deg s m →
      (∀ o, io o = none) → (∀ o, o ∈ (s.nodes.io.caches (sh o)).pages.map (·.1) → ∃ order, (sh o, order) ∈ orders ∧ o ∈ order) →
      s.flush io orders = .ok s' → s'.cache.savedIds.length * g.nodeLen < 2 ^ 64 → s'.cache.save = .ok (fi, fn) → load fi fn dim deg = .ok c →
      SHist sh cap g dim deg ⟨⟨PageIO.open' cap s'.nodes.io.disk s'.nodes.io.fileSize, fun _ => none⟩, c⟩ m

theorem CacheInv.congr {g : Geom} {dim deg : Nat} {c : NCache} {m m' : Nat → Rec} (h : CacheInv g dim deg c m)
    (he : ∀ id, ¬ Uncached c id → m' id = m id) : CacheInv g dim deg c m' := by
  refine ⟨h.hdim, h.hdeg, h.hlen, ?_, ?_, h.keys, h.idsNd, h.idsMap⟩
  · intro id r hr
    rw [he id (by rintro ⟨h1, -⟩; rw [h1] at hr; cases hr)]
    exact h.over id r hr
  · intro id off ho
    rw [he id (by rintro ⟨-, h1⟩; rw [h1] at ho; cases ho)]
    exact h.base id off ho

theorem open_store {sh : Nat → Nat} {cap : Nat} {g : Geom} {dim deg : Nat} {d0 : Disk} {fs : Nat} {m0 : Nat → Rec} {c : NCache}
    (hf : FileOk g dim deg d0 fs m0) (hc : CacheInv g dim deg c m0) :
    StoreInv sh cap g dim deg ⟨⟨PageIO.open' cap d0 fs, fun _ => none⟩, c⟩ m0 :=
  ⟨⟨d0, open_inv sh cap d0 fs, hf.recs, hf.zero, (fun _ _ _ hh => by cases hh), (fun s o ho => by cases ho)⟩, hc, fun id hid _ => hf.recs.holds id hid⟩

theorem generate_over {graph : List (List Nat)} {vectors : List (BitVec 32)} {medoid n dim deg want : Nat} {c : NCache}
    (e : generate graph vectors medoid n dim deg want = .ok c) : c.over = [] := by
  revert e
  unfold generate
  intro e
  split at e; · cases e
  split at e; · cases e
  split at e; · cases e
  split at e
  · cases e
  · cases e
  · simp only at e
    split at e
    · injection e with e; rw [← e]
    · split at e
      · cases e
      · cases e
      · injection e with e; rw [← e]

theorem shist_inv {sh : Nat → Nat} {cap : Nat} {g : Geom} {dim deg : Nat} (hgc : compute dim deg = .ok g) (hg : Good g dim deg) (hd32 : deg < 2 ^ 32)
    {s : Store} {m : Nat → Rec} (h : SHist sh cap g dim deg s m) : StoreInv sh cap g dim deg s m := by
  induction h with
  | opened hf =>
    refine open_store hf ⟨hg.hdim, hg.hdeg, rfl, (fun _ _ hh => by cases hh), (fun _ _ hh => by cases hh), List.nodup_nil, List.nodup_nil, ?_⟩
    intro id; simp [fresh, assoc]
  | generated hf h1 h2 h3 h4 h5 h6 e =>
    obtain ⟨c', e', i1, -, -, i4, -⟩ := generate_spec hgc hg h1 h2 h3 h4 h5
    rw [e] at e'; injection e' with e'; subst e'
    refine open_store hf (i1.congr ?_)
    intro id hid
    refine h6 id ?_
    have hover := generate_over e
    unfold Uncached at hid
    rw [hover] at hid
    refine (i4 id ((i1.idsMap id).2 ?_)).1
    rw [Option.isSome_iff_ne_none]
    exact fun hh => hid ⟨rfl, hh⟩
  | insert _ hio hid h32 hc e ih =>
    rename_i io id coords nbrs _
    have := insert_spec hg ih hio hid h32 hc (nbrs := nbrs)
    rw [e] at this
    exact this
  | relink _ hio hid h32 e ih =>
    rename_i io id nbrs _
    have := relink_spec hg hd32 ih hio hid h32 (nbrs := nbrs)
    rw [e] at this
    exact this
  | rejected _ hio hid h32 hc e ih =>
    rename_i io id coords nbrs _
    rcases e with e | e
    · have := insert_spec hg ih hio hid h32 hc (nbrs := nbrs)
      rw [e] at this
      exact this.1
    · have := relink_spec hg hd32 ih hio hid h32 (nbrs := nbrs)
      rw [e] at this
      exact this.1
  | read _ hio hid e ih =>
    obtain ⟨l, hl⟩ := ih.nodes
    rename_i s n' m io id r _
    rcases e with e | e
    · have := withPage_op hg hd32 hid (readPage_ok hl io id)
      unfold Nodes.readNode at e
      rw [e] at this
      exact ih.withNodes ⟨l, this.2.1⟩ (this.2.2.2 hio _ ih.disk)
    · have := withPage_op hg hd32 hid (snapshot_ok hl io id)
      unfold Nodes.readSnapshot at e
      rw [e] at this
      exact ih.withNodes ⟨l, this.2.1⟩ (this.2.2.2 hio _ ih.disk)
  | coords _ hio hid e ih =>
    obtain ⟨l, hl⟩ := ih.nodes
    rename_i s n' m io id r _
    have := readCoords_op hg hd32 hl io hid
    rw [e] at this
    exact ih.withNodes ⟨l, this.2.1⟩ (this.2.2.2 hio _ ih.disk)
  | clear _ ih =>
    obtain ⟨l, hl⟩ := ih.nodes
    exact ih.withNodes ⟨l, hl.pages, hl.recs, hl.zero, (fun _ _ _ hh => by cases hh), hl.inFile⟩ ih.disk
  | flush _ hio hcov e ih =>
    obtain ⟨s1, e1, i1, -⟩ := flush_spec ih hio hcov
    rw [e] at e1; injection e1 with e1; subst e1
    exact i1
  | restart _ hio hcov e hsz es el ih =>
    obtain ⟨s1, e1, i1, d1, -, n1⟩ := flush_spec ih hio hcov
    rw [e] at e1; injection e1 with e1; subst e1
    have hpos : 0 < g.nodeLen := by have := hg.len; omega
    have hfit := hg.fit
    obtain ⟨fi', fn', c', es', el', ic, -⟩ := save_load hgc i1.cache hsz (Nat.lt_of_le_of_lt (Nat.le_mul_of_pos_right _ hpos) hsz) (by have := hg.len; omega)
    rw [es] at es'; injection es' with es'; injection es' with e1 e2
    subst e1; subst e2
    rw [el] at el'; injection el' with el'; subst el'
    refine open_store ⟨n1.recs, n1.zero⟩ ic

/-- A search sees the last record of every node: a cache hit shows it, and on a miss every page it may have obtained (from the device directly,
or through the page cache) shows it. -/
theorem C44_seen_current {sh : Nat → Nat} {cap dim deg : Nat} {g : Geom} (hfit : 0 < dim ∧ dim * 4 + 4 + deg * 4 + 4095 < 2 ^ 64) (hd32 : deg < 2 ^ 32)
    (hg : compute dim deg = .ok g) {s : Store} {m : Nat → Rec} (h : SHist sh cap g dim deg s m) {id : Nat} (hid : g.Addressable id) :
    s.seenIn g id (s.nodes.io.disk (g.pageOffset id)) = .ok (m id) ∧
    (∀ io page p', (s.nodes.io.readPage sh g.pageSize io (g.pageOffset id) = .ok (some page, p') ∨
      snapshotPage sh g io s.nodes.io (g.pageOffset id) = .ok (some page, p')) → s.seenIn g id page = .ok (m id)) := by
  obtain ⟨g', e', hgood⟩ := compute_good hfit.1 hfit.2
  rw [hg] at e'; injection e' with e'; subst e'
  have hi := shist_inv hg hgood hd32 h
  refine ⟨seenIn_spec hgood hd32 hi hid (fun hu => hi.disk id hid hu), ?_⟩
  intro io page p' hp
  obtain ⟨l, hl⟩ := hi.nodes
  have : page = l (g.pageOffset id) := by
    rcases hp with hp | hp
    · have := readPage_ok hl io id
      rw [hp] at this
      injection this.1
    · have := snapshot_ok hl io id
      rw [hp] at this
      injection this.1
  subst this
  exact seenIn_spec hgood hd32 hi hid (fun _ => hl.recs.holds id hid)

/-- A lookup is never undefined; a hit is the last record; on a miss the device is current. -/
theorem C44_lookup {sh : Nat → Nat} {cap dim deg : Nat} {g : Geom} (hfit : 0 < dim ∧ dim * 4 + 4 + deg * 4 + 4095 < 2 ^ 64) (hd32 : deg < 2 ^ 32)
    (hg : compute dim deg = .ok g) {s : Store} {m : Nat → Rec} (h : SHist sh cap g dim deg s m) {id : Nat} (hid : g.Addressable id) :
    (∃ r, s.cache.lookup id = .ok (some r) ∧ viewCoords r 0 dim = .ok (m id).1 ∧ viewNbrs r 0 dim = .ok (m id).2) ∨
    (s.cache.lookup id = .ok none ∧ viewRec g (s.nodes.io.disk (g.pageOffset id)) id = .ok (m id)) := by
  obtain ⟨g', e', hgood⟩ := compute_good hfit.1 hfit.2
  rw [hg] at e'; injection e' with e'; subst e'
  have hi := shist_inv hg hgood hd32 h
  obtain ⟨l, hl⟩ := hi.nodes
  have hs := lookup_spec hi.cache id
  cases e : s.cache.lookup id with
  | ub => rw [e] at hs; exact hs.elim
  | throws => rw [e] at hs; exact hs.elim
  | ok o =>
    rw [e] at hs
    cases o with
    | some r =>
      have := view_record hgood hd32 hs.2.1 (hl.recs.hdim id hid) (hl.recs.hdeg id hid)
      rw [hgood.hdim] at this
      exact Or.inl ⟨r, rfl, this⟩
    | none => exact Or.inr ⟨rfl, viewRec_of_holds hgood hd32 (hi.disk id hid hs) (hl.recs.hdim id hid) (hl.recs.hdeg id hid)⟩

/-- The operations are total: nothing is undefined, an insert is rejected exactly for too many neighbours, and a rewrite for too many neighbours
or a node outside the file. -/
theorem C44_total {sh : Nat → Nat} {cap dim deg : Nat} {g : Geom} (hfit : 0 < dim ∧ dim * 4 + 4 + deg * 4 + 4095 < 2 ^ 64) (hd32 : deg < 2 ^ 32)
    (hg : compute dim deg = .ok g) {s : Store} {m : Nat → Rec} (h : SHist sh cap g dim deg s m) {io : Io} (hio : ∀ o, io o = none) {id : Nat}
    (hid : g.Addressable id) (h32 : id < 2 ^ 32) {coords nbrs : List (BitVec 32)} (hc : coords.length = dim) :
    s.insert sh g io id coords nbrs ≠ .ub ∧ s.relink sh g io id nbrs ≠ .ub ∧
    (nbrs.length ≤ deg → (∃ s', s.insert sh g io id coords nbrs = .ok s') ∧
      (g.pageOffset id + g.pageSize ≤ s.nodes.io.fileSize → ∃ s', s.relink sh g io id nbrs = .ok s')) := by
  obtain ⟨g', e', hgood⟩ := compute_good hfit.1 hfit.2
  rw [hg] at e'; injection e' with e'; subst e'
  have hi := shist_inv hg hgood hd32 h
  have h1 := insert_spec hgood hi hio hid h32 hc (nbrs := nbrs)
  have h2 := relink_spec hgood hd32 hi hio hid h32 (nbrs := nbrs)
  refine ⟨?_, ?_, ?_⟩
  · intro e; rw [e] at h1; exact h1
  · intro e; rw [e] at h2; exact h2
  · intro hn
    refine ⟨?_, ?_⟩
    · cases e : s.insert sh g io id coords nbrs with
      | ub => rw [e] at h1; exact h1.elim
      | throws s' => rw [e] at h1; have := h1.2; omega
      | ok s' => exact ⟨s', rfl⟩
    · intro hfs
      cases e : s.relink sh g io id nbrs with
      | ub => rw [e] at h2; exact h2.elim
      | throws s' =>
        rw [e] at h2
        rcases h2.2 with hh | hh
        · omega
        · omega
      | ok s' => exact ⟨s', rfl⟩

theorem upsert_shape {c c' : NCache} {id : Nat} {coords nbrs : List (BitVec 32)} (e : c.upsert id coords nbrs = .ok c') :
    ∃ r, c' = { c with over := (id, r) :: c.over.filter (·.1 ≠ id) } := by
  unfold NCache.upsert at e
  by_cases h1 : c.dim = 0 ∨ c.nodeLen = 0
  · rw [if_pos h1] at e; cases e
  · rw [if_neg h1] at e
    by_cases h2 : c.deg < nbrs.length
    · rw [if_pos h2] at e; cases e
    · rw [if_neg h2] at e
      cases hp : packNode (List.replicate c.nodeLen 0) 0 coords nbrs c.dim with
      | ub => rw [hp] at e; cases e
      | throws => rw [hp] at e; cases e
      | ok r => rw [hp] at e; injection e with e; exact ⟨r, e.symm⟩

/-- `update_neighbors` on the cache alone: a node it does not know is left alone; a node it knows keeps its vector and gets the new neighbours. -/
theorem C44_update_neighbors {sh : Nat → Nat} {cap dim deg : Nat} {g : Geom} (hfit : 0 < dim ∧ dim * 4 + 4 + deg * 4 + 4095 < 2 ^ 64)
    (hd32 : deg < 2 ^ 32) (hg : compute dim deg = .ok g) {s : Store} {m : Nat → Rec} (h : SHist sh cap g dim deg s m) {id : Nat}
    (hid : g.Addressable id) (h32 : id < 2 ^ 32) {nbrs : List (BitVec 32)} (hn : nbrs.length ≤ deg) :
    (s.cache.lookup id = .ok none → s.cache.updateNeighbors id nbrs = .ok s.cache) ∧
    (s.cache.lookup id ≠ .ok none → ∃ c', s.cache.updateNeighbors id nbrs = .ok c' ∧
      (∃ r, c'.lookup id = .ok (some r) ∧ viewCoords r 0 dim = .ok (m id).1 ∧ viewNbrs r 0 dim = .ok nbrs) ∧
      ∀ x, x ≠ id → c'.lookup x = s.cache.lookup x) := by
  obtain ⟨g', e', hgood⟩ := compute_good hfit.1 hfit.2
  rw [hg] at e'; injection e' with e'; subst e'
  have hi := shist_inv hg hgood hd32 h
  obtain ⟨l, hl⟩ := hi.nodes
  have hu := updateNeighbors_spec hgood hd32 hi.cache (id := id) ⟨hl.recs.hdim id hid, hl.recs.hdeg id hid⟩ h32 hn
  refine ⟨hu.1, ?_⟩
  intro hne
  obtain ⟨c', e', i'⟩ := hu.2 hne
  have hov : (∃ r, c' = { s.cache with over := (id, r) :: s.cache.over.filter (·.1 ≠ id) }) := by
    unfold NCache.updateNeighbors at e'
    split at e'; · cases e'
    split at e'; · cases e'
    split at e'
    · cases e'
    · cases e'
    · rename_i hh; exact absurd hh hne
    · split at e'
      · cases e'
      · cases e'
      · exact upsert_shape e'
  refine ⟨c', e', ?_, ?_⟩
  · obtain ⟨r, hr⟩ := hov
    have hs := lookup_spec i' id
    have hlk : c'.lookup id = .ok (some r) := by
      unfold NCache.lookup
      rw [hr, assoc, if_pos rfl]
    rw [hlk] at hs
    have hup : updRec m id ((m id).1, nbrs) id = ((m id).1, nbrs) := by unfold updRec; rw [if_pos rfl]
    rw [hup] at hs
    have := view_record hgood hd32 hs.2.1 (hl.recs.hdim id hid) hn
    rw [hgood.hdim] at this
    exact ⟨r, hlk, this⟩
  · intro x hx
    obtain ⟨r, hr⟩ := hov
    unfold NCache.lookup NCache.base
    rw [hr]
    simp only
    have : assoc x ((id, r) :: s.cache.over.filter (·.1 ≠ id)) = assoc x s.cache.over := by
      rw [assoc, if_neg (fun e => hx e.symm)]
      have := assoc_filter (fun k => decide (k ≠ id)) x s.cache.over
      simpa [hx] using this
    rw [this]

/-- Saving and loading the cache changes no lookup, and a node is cached after exactly if it was before. -/
theorem C44_save_load {sh : Nat → Nat} {cap dim deg : Nat} {g : Geom} (hfit : 0 < dim ∧ dim * 4 + 4 + deg * 4 + 4095 < 2 ^ 64)
    (hd32 : deg < 2 ^ 32) (hg : compute dim deg = .ok g) {s : Store} {m : Nat → Rec} (h : SHist sh cap g dim deg s m)
    (hsz : s.cache.savedIds.length * g.nodeLen < 2 ^ 64) :
    ∃ fi fn c', s.cache.save = .ok (fi, fn) ∧ load fi fn dim deg = .ok c' ∧ (∀ id, c'.lookup id = s.cache.lookup id) ∧ c'.over = [] := by
  obtain ⟨g', e', hgood⟩ := compute_good hfit.1 hfit.2
  rw [hg] at e'; injection e' with e'; subst e'
  have hi := shist_inv hg hgood hd32 h
  have hlen := hgood.len
  have hcnt := Nat.le_mul_of_pos_right s.cache.savedIds.length (show 0 < g.nodeLen by omega)
  obtain ⟨fi, fn, c', e1, e2, -, e4, -⟩ := save_load hg hi.cache hsz (Nat.lt_of_le_of_lt hcnt hsz) (by omega)
  refine ⟨fi, fn, c', e1, e2, e4, ?_⟩
  unfold load at e2
  split at e2; · cases e2
  simp only at e2
  split at e2; · cases e2
  split at e2; · cases e2
  split at e2; · cases e2
  split at e2; · cases e2
  split at e2
  · cases e2
  · cases e2
  · split at e2
    · cases e2
    · injection e2 with e2; rw [← e2]

/-- `generate`: the cached nodes are distinct, reachable from the medoid, the medoid is first, there are at most `want` of them, and if there are
fewer the whole reachable part is cached; each cached record is the node's vector and its first `deg` neighbours, other nodes are misses. -/
theorem C44_generate {dim deg n medoid want : Nat} {g : Geom} (hfit : 0 < dim ∧ dim * 4 + 4 + deg * 4 + 4095 < 2 ^ 64)
    (hd32 : deg < 2 ^ 32) (hg : compute dim deg = .ok g) {graph : List (List Nat)} {vectors : List (BitVec 32)} (hgl : graph.length = n) (hm : medoid < n)
    (hv : n * dim ≤ vectors.length) (hn32 : n ≤ 2 ^ 32) (hadr : ∀ id, id < n → g.Addressable id) :
    ∃ c, generate graph vectors medoid n dim deg want = .ok c ∧ c.ids.Nodup ∧ c.ids.length ≤ min want n ∧ (0 < want → c.ids.head? = some medoid) ∧
      (∀ x ∈ c.ids, x < n ∧ Hops n graph medoid x) ∧ (c.ids.length < min want n → ∀ x, Hops n graph medoid x → x ∈ c.ids) ∧
      (∀ id, id ∉ c.ids → c.lookup id = .ok none) ∧
      (∀ id ∈ c.ids, ∃ r, c.lookup id = .ok (some r) ∧ viewCoords r 0 dim = .ok ((vectors.drop (id * dim)).take dim) ∧
        viewNbrs r 0 dim = .ok (((graph[id]?.getD []).map (BitVec.ofNat 32)).take deg)) := by
  obtain ⟨g', e', hgood⟩ := compute_good hfit.1 hfit.2
  rw [hg] at e'; injection e' with e'; subst e'
  obtain ⟨c, e, i1, i2, i3, i4, i5⟩ := generate_spec (want := want) hg hgood hgl hm hv hn32 hadr
  have hover := generate_over e
  refine ⟨c, e, i1.idsNd, i2, i3, i4, ?_, ?_, ?_⟩
  · intro hlt x hx
    induction hx with
    | refl =>
      have hh := i3 (by omega)
      cases hc : c.ids with
      | nil => rw [hc] at hh; cases hh
      | cons a l => rw [hc] at hh; injection hh with hh; rw [hh]; exact List.mem_cons_self
    | step _ h1 h2 ih => exact i5 hlt _ ih _ h1 h2
  · intro id hid
    rw [lookup_none_iff i1, hover]
    refine ⟨rfl, ?_⟩
    cases ha : assoc id c.map with
    | none => rfl
    | some o => exact absurd ((i1.idsMap id).2 (by rw [ha]; rfl)) hid
  · intro id hid
    have hs := lookup_spec i1 id
    have hmm := (i1.idsMap id).1 hid
    cases el : c.lookup id with
    | ub => rw [el] at hs; exact hs.elim
    | throws => rw [el] at hs; exact hs.elim
    | ok o =>
      rw [el] at hs
      cases o with
      | none => rw [hs.2] at hmm; cases hmm
      | some r =>
        have hx : (vectors.drop (id * dim)).length ≥ dim := by
          rw [List.length_drop]
          have : (id + 1) * dim ≤ n * dim := Nat.mul_le_mul_right _ (i4 id hid).1
          rw [Nat.succ_mul] at this
          omega
        have := view_record hgood hd32 hs.2.1 (by unfold baseRec; simp only [List.length_take]; omega) (by unfold baseRec; simp only [List.length_take]; omega)
        rw [hgood.hdim] at this
        exact ⟨r, rfl, this⟩

section Witness

/-- Non-vacuous: an insert into a fresh store, and a two-node graph to generate from. -/
example : ∃ g, compute 1 2 = .ok g ∧ ∃ s m, SHist (fun _ => 0) 1 g 1 2 s m ∧ m 0 = ([7], [1, 2]) ∧
    s.seenIn g 0 (s.nodes.io.disk (g.pageOffset 0)) = .ok ([7], [1, 2]) := by
  obtain ⟨g, e, hg⟩ := compute_good (dim := 1) (deg := 2) (by omega) (by omega)
  refine ⟨g, e, ?_⟩
  have hid : g.Addressable 0 := by
    have := hg.page
    unfold Geom.Addressable
    rw [this, hg.len, hg.nps]
    decide
  have h0 := SHist.opened (sh := fun _ => 0) (cap := 1) (zeros_ok hg 4096)
  obtain ⟨s', hs'⟩ := ((C44_total (by omega) (by omega) e h0 (io := fun _ => none) (fun _ => rfl) hid (by omega) (coords := [7]) (nbrs := [1, 2]) rfl).2.2
    (by decide)).1
  have h1 := SHist.insert h0 (fun _ => rfl) hid (by omega) rfl hs'
  exact ⟨s', _, h1, rfl, (C44_seen_current (by omega) (by omega) e h1 hid).1⟩

example : bfs 3 [[1], [0], [0]] 3 [0] [true, false, false] = [0, 1] := by decide

end Witness

end Alaya.NodeCache
